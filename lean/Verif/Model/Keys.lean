/-
Model of the owners of OpenSSL objects in include/salticidae/crypto.h (PKey, X509, TLSContext, TLS) and of the C functions in
src/crypto.cpp, as far as resources are concerned: references to OpenSSL objects, open files, buffers with secrets.

A reference obtained from OpenSSL (EVP_PKEY_new, PEM_read_*, d2i_*, X509_get_pubkey, X509_new, SSL_CTX_new, SSL_new,
SSL_get_peer_certificate, i2d_* buffers, RSA_new, BN_new) is a number; releasing it (EVP_PKEY_free, ...) twice is undefined behaviour.
What OpenSSL refers to internally is its own business.  The content of keys and certificates is not modelled; the outcome of
every operation that may fail is an input.  Allocation failure is not modelled.
-/
namespace Salticidae
namespace Keys

/-- The classes PKey (crypto.h:138-226), X509 (crypto.h:228-310), TLSContext (crypto.h:312-358), TLS (crypto.h:362-418). -/
inductive Kind where
  | key | cert | ctx | tls
  deriving DecidableEq, Repr

/-- `held`: references to OpenSSL objects not released yet.  `files`: open files.  `objs`: the C++ objects, with the pointer inside
(null after a move).  `secret`: the buffers among `held` with a serialised key in them.  `unwiped`: the number of buffers with a secret that were released without having been overwritten.
`next`: a number not used yet. -/
structure World where
  held : List Nat
  files : List Nat
  objs : List (Nat × Kind × Option Nat)
  secret : List Nat
  unwiped : Nat
  next : Nat
  deriving DecidableEq, Repr

/-- At the start of the program. -/
def init : World := ⟨[], [], [], [], 0, 0⟩

/-- What the caller observes; `aborted`: an exception leaves an extern "C" function. -/
inductive Out where
  | made (x : Nat)
  | done
  | thrown
  | aborted
  deriving DecidableEq, Repr

/-- Operations.  `c`: called through the C function.  `pw`: the length of the password given, if any.  The other truth values are what the
operating system and OpenSSL answer: the file can be opened, the content is encrypted, it can be parsed (with this password), the operation
succeeds. -/
inductive Op where
  | rsa (gen : Bool)
  | pem (k : Kind) (c : Bool) (pw : Option Nat) (opened encrypted parsed : Bool)
  | fromDer (k : Kind) (c : Bool) (len : Nat) (parsed : Bool)
  | selfSign (x : Nat)
  | pubkey (c : Bool) (x : Nat) (ok : Bool)
  | der (c : Bool) (x : Nat) (ok : Bool)
  | save (x : Nat) (opened written : Bool)
  | move (x : Nat)
  | ctxNew
  | use (t x : Nat) (ok : Bool)
  | tlsNew (t : Nat) (ok : Bool)
  | peerCert (t : Nat) (present : Bool)
  | destroy (x : Nat)
  deriving DecidableEq, Repr

/-- The object at an address; `none`: there is none (undefined behaviour). -/
def objAt (w : World) (x : Nat) : Option (Kind × Option Nat) := (w.objs.find? (fun o => o.1 = x)).map (·.2)

/-- An object of kind `k` at `x`, with the reference inside (not null). -/
def refAt (w : World) (x : Nat) (k : Kind) : Option Nat :=
  match objAt w x with
  | some (k', some r) => if k' = k then some r else none
  | _ => none

/-- OpenSSL hands out a reference. -/
def acquire (w : World) : World × Nat := ({ w with held := w.next :: w.held, next := w.next + 1 }, w.next)

/-- EVP_PKEY_free, X509_free, SSL_CTX_free, SSL_free, RSA_free, BN_free, OPENSSL_free; `none`: not a reference we have. -/
def release (w : World) (r : Nat) : Option World :=
  if r ∈ w.held then
    some { w with held := w.held.erase r, secret := w.secret.erase r, unwiped := if r ∈ w.secret then w.unwiped + 1 else w.unwiped }
  else none

/-- A buffer is filled by i2d_PublicKey, i2d_PrivateKey, i2d_X509 (crypto.h:197, 208, 292). -/
def fill (w : World) (r : Nat) : World := { w with secret := r :: w.secret }

/-- OPENSSL_cleanse (crypto.h:201, 212, 296). -/
def cleanse (w : World) (r : Nat) : World := { w with secret := w.secret.erase r }

/-- `fopen`. -/
def openFile (w : World) : World × Nat := ({ w with files := w.next :: w.files, next := w.next + 1 }, w.next)

/-- `fclose`; `none`: not an open file. -/
def closeFile (w : World) (f : Nat) : Option World := if f ∈ w.files then some { w with files := w.files.erase f } else none

/-- The constructors `PKey(EVP_PKEY *)` etc. (crypto.h:143, 232) around a reference. -/
def wrap (w : World) (k : Kind) (r : Nat) : World × Out :=
  ({ w with objs := (w.next, k, some r) :: w.objs, next := w.next + 1 }, .made w.next)

/-- The password string `tmp` of a C function is destroyed by an exception, before OPENSSL_cleanse (crypto.cpp:9-18, 37-46). -/
def dropPassword (w : World) (c : Bool) (pw : Option Nat) : World :=
  if c && pw.isSome then { w with unwiped := w.unwiped + 1 } else w

/-- OpenSSL's buffer for passwords (PEM_BUFSIZE). -/
def pemBuf : Nat := 1024

/-- An exception inside a function of the library: without the C interface, or inside SALTICIDAE_CERROR_TRY, the caller sees it. -/
def thrown (tried c : Bool) : Out := if c && !tried then .aborted else .thrown

/-- One operation; `none`: undefined behaviour. -/
def step (w : World) : Op → Option (World × Out)
  -- create_privkey_rsa, crypto.h:147-164: `key`, `e`, `rsa` are allocated; on failure `key` is not freed
  | .rsa gen =>
    let (w, key) := acquire w
    let (w, e) := acquire w
    let (w, rsa) := acquire w
    (release w e).bind fun w => (release w rsa).map fun w => if gen then wrap w .key key else (w, .thrown)
  -- create_privkey_from_pem_file crypto.h:166-184, X509::create_from_pem_file crypto.h:254-272; the C functions crypto.cpp:9-18, 37-46
  | .pem k c pw opened encrypted parsed =>
    if k ≠ .key ∧ k ≠ .cert then none
    else if !opened then some (dropPassword w c pw, .thrown)
    else
      let (w, f) := openFile w
      -- _tls_pem_with_passwd (crypto.h:126-132) throws through OpenSSL's C code if the password does not fit; _tls_pem_no_passswd (crypto.h:123-125) fails
      if encrypted && (pw.any fun n => pemBuf < n + 1) then none
      else if parsed && !(encrypted && pw.isNone) then
        let (w, r) := acquire w
        (closeFile w f).map fun w => wrap w k r
      else some (dropPassword w c pw, .thrown)
  -- create_privkey_from_der crypto.h:186-193, create_from_der crypto.h:274-281: `&der[0]` of an empty vector is undefined behaviour; crypto.cpp:20-25, 48-53
  | .fromDer k _ len parsed =>
    if k ≠ .key ∧ k ≠ .cert then none
    else if len = 0 then none
    else if parsed then
      let (w, r) := acquire w
      some (wrap w k r)
    else some (w, .thrown)
  -- create_self_signed_from_pubkey, crypto.h:236-252
  | .selfSign x => (refAt w x .key).map fun _ =>
    let (w, r) := acquire w
    wrap w .cert r
  -- get_pubkey, crypto.h:283-288; x509_get_pubkey, crypto.cpp:29-31, not in a try block
  | .pubkey c x ok => (refAt w x .cert).map fun _ =>
    if ok then
      let (w, r) := acquire w
      wrap w .key r
    else (w, thrown false c)
  -- get_pubkey_der, get_privkey_der crypto.h:195-215, get_der crypto.h:290-299: the buffer is overwritten, then freed; the C functions
  -- (crypto.cpp:33-35, 57-63) are not in try blocks
  | .der c x ok => match objAt w x with
    | some (k, some _) =>
      if k ≠ .key ∧ k ≠ .cert then none
      else if ok then
        let (w, buf) := acquire w
        (release (cleanse (fill w buf) buf) buf).map fun w => (w, .done)
      else some (w, thrown false c)
    | _ => none
  -- save_privkey_to_file crypto.h:217-223, save_to_file crypto.h:301-307: the file is not checked
  | .save x opened written => match objAt w x with
    | some (k, some _) =>
      if k ≠ .key ∧ k ≠ .cert then none
      else if !opened then none
      else
        let (w, f) := openFile w
        (closeFile w f).map fun w => (w, if written then .done else .thrown)
    | _ => none
  -- the move constructors, crypto.h:145, 234, 322, 379
  | .move x => (objAt w x).map fun o =>
    let emptied : List (Nat × Kind × Option Nat) := w.objs.map fun y => if y.1 = x then (x, o.1, none) else y
    ({ w with objs := (w.next, o.1, o.2) :: emptied, next := w.next + 1 }, .made w.next)
  -- TLSContext(), crypto.h:316-319
  | .ctxNew =>
    let (w, r) := acquire w
    some (wrap w .ctx r)
  -- use_cert, use_privkey crypto.h:330-334, 342-346: OpenSSL takes references of its own
  | .use t x ok => (refAt w t .ctx).bind fun _ => match objAt w x with
    | some (k, some _) => if k ≠ .key ∧ k ≠ .cert then none else some (w, if ok then .done else .thrown)
    | _ => none
  -- TLS(ctx, fd, accept), crypto.h:365-376: an exception in a constructor does not run the destructor
  | .tlsNew t ok => (refAt w t .ctx).map fun _ =>
    let (w, r) := acquire w
    if ok then wrap w .tls r else (w, .thrown)
  -- get_peer_cert, crypto.h:396-401
  | .peerCert t present => (refAt w t .tls).map fun _ =>
    if present then
      let (w, r) := acquire w
      wrap w .cert r
    else (w, .thrown)
  -- the destructors crypto.h:225, 309, 357, 417, x509_free, pkey_free crypto.cpp:27, 55
  | .destroy x => (objAt w x).bind fun o =>
    let left : List (Nat × Kind × Option Nat) := w.objs.filter fun y => y.1 ≠ x
    match o.2 with
    | some r => (release { w with objs := left } r).map fun w => (w, .done)
    | none => some ({ w with objs := left }, .done)

/-- Run a program: what was observed, and the state at the end, `none` after undefined behaviour. -/
def run : World → List Op → List (Op × Out) × Option World
  | w, [] => ([], some w)
  | w, op :: ops => match step w op with
    | none => ([], none)
    | some (w', out) =>
      let x := run w' ops
      ((op, out) :: x.1, x.2)

end Keys
end Salticidae
