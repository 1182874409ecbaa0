import Verif.Model.Keys
/-
What a program has to know about keys, certificates, TLS contexts and TLS sessions: which objects it owns.
-/
namespace Salticidae
namespace Spec.Keys
open Salticidae.Keys

/-- The objects of a program; `true`: usable, `false`: moved from, may only be destroyed (or moved again). -/
abbrev Env := List (Nat × Kind × Bool)

/-- The program has a usable object of this kind. -/
def has (env : Env) (x : Nat) (k : Kind) : Bool := env.any fun o => o.1 = x && o.2.1 = k && o.2.2

/-- The operation is one the program may use: the objects are its own, usable, and of the right kind. -/
def permitted (env : Env) : Op → Bool
  | .rsa _ => true
  | .pem k .. => k = .key || k = .cert
  | .fromDer k .. => k = .key || k = .cert
  | .selfSign x => has env x .key
  | .pubkey _ x _ => has env x .cert
  | .der _ x _ => has env x .key || has env x .cert
  | .save x .. => has env x .key || has env x .cert
  | .move x => env.any fun o => o.1 = x && o.2.2
  | .ctxNew => true
  | .use t x _ => has env t .ctx && (has env x .key || has env x .cert)
  | .tlsNew t _ => has env t .ctx
  | .peerCert t _ => has env t .tls
  | .destroy x => env.any fun o => o.1 = x

/-- The kind of the object an operation makes. -/
def makes (env : Env) : Op → Option Kind
  | .rsa _ => some .key
  | .pem k .. => some k
  | .fromDer k .. => some k
  | .selfSign _ => some .cert
  | .pubkey .. => some .key
  | .move x => (env.find? fun o => o.1 = x).map (·.2.1)
  | .ctxNew => some .ctx
  | .tlsNew .. => some .tls
  | .peerCert .. => some .cert
  | _ => none

/-- Does the outcome the environment chose mean success? -/
def succeeds : Op → Bool
  | .rsa gen => gen
  | .pem _ _ pw opened encrypted parsed => opened && parsed && !(encrypted && pw.isNone)
  | .fromDer _ _ _ parsed => parsed
  | .pubkey _ _ ok => ok
  | .der _ _ ok => ok
  | .save _ opened written => opened && written
  | .use _ _ ok => ok
  | .tlsNew _ ok => ok
  | .peerCert _ present => present
  | _ => true

/-- The objects a program owns after an operation that was observed to end like this; `none`: it must not end like this. -/
def track (env : Env) (op : Op) (out : Out) : Option Env :=
  if succeeds op then
    match makes env op, out with
    | some k, .made x =>
      if env.any (fun o => o.1 = x) then none
      else match op with
      | .move y => some ((x, k, true) :: env.map fun o => if o.1 = y then (y, o.2.1, false) else o)
      | _ => some ((x, k, true) :: env)
    | none, .done => match op with
      | .destroy y => some (env.filter fun o => o.1 ≠ y)
      | _ => some env
    | _, _ => none
  else if out = .thrown then some env else none

/-- Is the sequence of operations (with outcomes) that of a program that uses only what it owns, and that satisfies `ok` at each operation?
Then: what it owns at the end. -/
inductive Verdict where
  | wrong
  | excused
  | good (env : Env)
  deriving DecidableEq

/-- Follow a run: `ops` is the program, `outs` what was observed (shorter after undefined behaviour). -/
def follow (ex : Op → Bool) : Env → List Op → List (Op × Out) → Verdict
  | env, [], _ => .good env
  | env, op :: ops, outs =>
    if !permitted env op || ex op then .excused
    else match outs with
    | [] => .wrong
    | (_, out) :: outs => match track env op out with
      | none => .wrong
      | some env' => follow ex env' ops outs

/-- The cases that go wrong: a key pair cannot be generated; a PEM file can be opened but not parsed, or cannot be opened and the C
function was given a password; a password that is too long for OpenSSL's buffer; an empty DER string; a file that cannot be opened for writing;
a failure inside a C function without error parameter; SSL_set_fd fails. -/
def trouble : Op → Bool
  | .rsa gen => !gen
  | .pem _ c pw opened encrypted parsed =>
    (opened && !(parsed && !(encrypted && pw.isNone))) || (!opened && c && pw.isSome) || (opened && encrypted && pw.any fun n => 1024 < n + 1)
  | .fromDer _ _ len _ => len = 0
  | .pubkey c _ ok => c && !ok
  | .der c _ ok => c && !ok
  | .save _ opened _ => !opened
  | .tlsNew _ ok => !ok
  | _ => false

end Spec.Keys
end Salticidae
