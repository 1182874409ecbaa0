import Verif.Lemmas.Keys
/-
C100: keys, certificates, TLS contexts and sessions own their OpenSSL objects, and every operation leaves nothing behind.
-/
namespace Salticidae
open Keys

/-- **C100** (full statement).  A program creates, converts, moves and destroys keys, certificates, TLS contexts and TLS sessions, through C++
or C; every operation may fail if the file system or OpenSSL makes it fail.  As long as the program uses only objects it owns: every operation
is defined, gives an object (or the data) exactly if it succeeds and an exception otherwise; when the program has destroyed all its
objects, no OpenSSL object and no file is left open; and no buffer with a secret was released without having been overwritten. -/
def C100_statement : Prop :=
  ∀ ops : List Op, match Spec.Keys.follow (fun _ => false) [] ops (run init ops).1 with
    | .wrong => False
    | .excused => True
    | .good env => ∃ w, (run init ops).2 = some w ∧ (env = [] → w.held = [] ∧ w.files = []) ∧ w.unwiped = 0

/-- **C100**, what holds: for every sequence of operations none of which is in the list `Spec.Keys.trouble`: failing key generation, a PEM file
that can be opened but not parsed, a password with the C functions and a file that cannot be opened, a password of 1024 bytes or more for an
encrypted file, an empty DER string, a file that cannot be written to, a failure in a C function without error parameter, SSL_set_fd failing. -/
theorem C100_keys_partial (ops : List Op) :
    match Spec.Keys.follow Spec.Keys.trouble [] ops (run init ops).1 with
    | .wrong => False
    | .excused => True
    | .good env => ∃ w, (run init ops).2 = some w ∧ (env = [] → w.held = [] ∧ w.files = []) ∧ w.unwiped = 0 := by
  have := run_ok ops init [] inv_init
  split <;> rename_i heq <;> rw [heq] at this
  · exact this
  · trivial
  · obtain ⟨w, h1, h2⟩ := this
    exact ⟨w, h1, fun e => by subst e; exact ⟨(inv_empty h2).1, (inv_empty h2).2.1⟩, h2.wiped⟩

/-- A server's life: a key pair is read from an encrypted file, a certificate made for it, both given to a context, a session created, the peer's
certificate and its public key extracted, everything moved around and destroyed; some operations fail. -/
def keysTour : List Op :=
  [ .pem .key true (some 8) true true true, .pem .key true none false false false, .selfSign 2, .ctxNew, .use 6 2 true, .use 6 4 true,
    .tlsNew 6 true, .peerCert 8 false, .peerCert 8 true, .pubkey false 10 true, .der true 12 true, .save 10 true false, .move 2, .der false 15 true,
    .fromDer .cert true 5 false, .rsa true, .destroy 2, .destroy 4, .destroy 6, .destroy 8, .destroy 10, .destroy 12, .destroy 15, .destroy 20 ]

example : Spec.Keys.follow Spec.Keys.trouble [] keysTour (run init keysTour).1 = .good [] := by decide +kernel
example : (run init (keysTour.take 16)).2.map (fun w => w.held.length) = some 7 := by decide +kernel

/-- A buffer released as it is counts, one overwritten before does not. -/
example : let (w, r) := acquire init
    ((release (fill w r) r).map (·.unwiped), (release (cleanse (fill w r) r) r).map (·.unwiped)) = (some 1, some 0) := by decide +kernel

/-- A moved-from object must not be used, nor an object of another class. -/
example : (run init [.ctxNew, .move 1, .tlsNew 1 true]).2 = none ∧ (run init [.ctxNew, .move 1, .tlsNew 2 true]).2.isSome = true ∧
    (run init [.ctxNew, .selfSign 1]).2 = none ∧ (run init [.selfSign 0]).2 = none := by decide +kernel

/-- Operations after which something is left behind although the program owns nothing. -/
def leftBehind (ops : List Op) : Prop :=
  Spec.Keys.follow (fun _ => false) [] ops (run init ops).1 = .good [] ∧
  ∃ w, (run init ops).2 = some w ∧ ¬ (w.held = [] ∧ w.files = [] ∧ w.unwiped = 0)

instance (ops : List Op) : Decidable (leftBehind ops) := by
  unfold leftBehind
  cases h : (run init ops).2 with
  | none => exact isFalse (by simp)
  | some w =>
    exact decidable_of_iff (Spec.Keys.follow (fun _ => false) [] ops (run init ops).1 = .good [] ∧ ¬ (w.held = [] ∧ w.files = [] ∧ w.unwiped = 0))
      (by simp)

/-- Programs the statement fails for: a PEM file that is not one leaves the file open (a key, a certificate, an encrypted file read without
password); a failing generation leaves the key; a failing SSL_set_fd leaves the session; the C function leaves the password in memory when the file cannot
be opened. -/
theorem C100_violated_left_behind :
    leftBehind [.pem .key false none true false false] ∧ leftBehind [.pem .cert false none true false false] ∧
    leftBehind [.pem .key true none true true true] ∧ leftBehind [.rsa false] ∧
    leftBehind [.ctxNew, .tlsNew 1 false, .destroy 1] ∧ leftBehind [.pem .key true (some 8) false false false] := by decide +kernel

/-- Programs that are undefined or end with an exception from a C function: saving to a file that cannot be opened, a long password, an empty DER
string, a certificate whose key cannot be decoded. -/
theorem C100_violated_undefined :
    (∀ ops ∈ [[Op.rsa true, .save 3 false false], [.pem .key false (some 1024) true true true], [.fromDer .cert true 0 false],
      [.fromDer .cert true 9 true, .pubkey true 1 false]],
      Spec.Keys.follow (fun _ => false) [] ops (run init ops).1 = .wrong) := by decide +kernel

/-- The full statement fails. -/
theorem C100_violated : ¬ C100_statement := by
  intro h
  have h1 := h [.rsa false]
  have h2 : Spec.Keys.follow (fun _ => false) [] [.rsa false] (run init [.rsa false]).1 = .good [] := by decide +kernel
  rw [h2] at h1
  obtain ⟨w, e, h3, _⟩ := h1
  have h4 : (run init [.rsa false]).2.map (·.held) = some [0] := by decide +kernel
  rw [e] at h4
  have h5 := (h3 rfl).1
  simp only [Option.map_some, Option.some.injEq] at h4
  rw [h5] at h4
  cases h4

/-- At every moment, whatever happened before: the next operation, if it is permitted and not one of the troubles, is defined and reports
what it should. -/
theorem C100_next_operation_partial (ops : List Op) (op : Op) (env : Spec.Keys.Env)
    (hgood : Spec.Keys.follow Spec.Keys.trouble [] ops (run init ops).1 = .good env)
    (hp : Spec.Keys.permitted env op = true) (ht : Spec.Keys.trouble op = false) :
    ∃ w w' out env', (run init ops).2 = some w ∧ step w op = some (w', out) ∧ Spec.Keys.track env op out = some env' ∧
      w'.unwiped = 0 ∧ w'.files = [] ∧ w'.held.length = (env'.filter fun o => o.2.2).length := by
  have := run_ok ops init [] inv_init
  rw [hgood] at this
  obtain ⟨w, h1, h2⟩ := this
  obtain ⟨w', out, env', e1, e2, e3⟩ := step_ok h2 op hp ht
  refine ⟨w, w', out, env', h1, e1, e2, e3.wiped, e3.files, ?_⟩
  rw [e3.held.length_eq, e3.env]
  clear e3 e1
  induction w'.objs with
  | nil => rfl
  | cons o l ih =>
    obtain ⟨x, k, r⟩ := o
    cases r <;> simpa [seen] using ih

example : Spec.Keys.follow Spec.Keys.trouble [] (keysTour.take 16) (run init (keysTour.take 16)).1 =
    .good [(20, .key, true), (15, .key, true), (12, .key, true), (10, .cert, true), (8, .tls, true), (6, .ctx, true), (4, .cert, true), (2, .key, false)] ∧
    Spec.Keys.permitted [(20, .key, true), (15, .key, true)] (.der true 15 true) = true ∧ Spec.Keys.trouble (.der true 15 true) = false := by
  decide +kernel

end Salticidae
