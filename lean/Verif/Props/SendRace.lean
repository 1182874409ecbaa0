import Verif.Lemmas.SendRace
/-
Property C97: send_msg(msg, peer) and send_msg(msg, client) on the user's thread while the dispatcher works.
-/
namespace Salticidae
open SendRace

/-! ## C97: sending while connections come and go -/

/-- No call has used a connection or an entry of the table after its deletion, and each has used the connection that its peer (client) had when it was looked up. -/
def SendRace.Safe (s : St) : Prop := s.uaf = false ∧ ∀ e ∈ s.sent, e.2.2 = some e.2.1

/-- The full statement of C97: any number of threads send to peers, or to clients, and however they interleave with the dispatcher the calls are safe. -/
def C97_statement : Prop := ∀ (peers : Bool) (k : Nat) (as : List Act) (s : St), run peers (init k) as = some s → Safe s

/-- One thread sends to peer 7.  It has looked the peer up and read the two pointers of the handle; the dispatcher finishes a handshake: it stores the new connection and drops the last reference to the old one;
the thread increments the count in the control block that has been deleted. -/
def SendRace.lostRun : List Act := [
  .add 7, .create, .call 0 7, .sstep 0, .sstep 0, .sstep 0, .assign 7 1, .dstep, .dstep, .dstep, .sstep 0]

/-- A thread that sends to a peer increments a reference count in a control block that the dispatcher has deleted. -/
theorem C97_violated_peers : ∃ s, run true (init 1) lostRun = some s ∧ s.uaf = true := by
  have h : (run true (init 1) lostRun).map (·.uaf) = some true := by decide +kernel
  obtain ⟨s, h1, h2⟩ := Option.map_eq_some_iff.mp h
  exact ⟨s, h1, h2⟩

/-- The thread reads the pointer to the object before the handshake is finished and the one to the control block after: it holds a reference to the new connection and writes to the old one, which is deleted. -/
def SendRace.tornRun : List Act := [
  .add 7, .create, .call 0 7, .sstep 0, .sstep 0, .assign 7 1, .dstep, .dstep, .sstep 0, .sstep 0, .dstep, .sstep 0]

/-- A thread that sends to a peer reads half of the old handle and half of the new one, and writes to a deleted connection. -/
theorem C97_violated_torn : ∃ s, run true (init 1) tornRun = some s ∧ s.uaf = true ∧ s.sent = [(7, 0, some 1)] := by
  have h : (run true (init 1) tornRun).map (fun s => (s.uaf, s.sent)) = some (true, [(7, 0, some 1)]) := by decide +kernel
  obtain ⟨s, h1, h2⟩ := Option.map_eq_some_iff.mp h
  exact ⟨s, h1, (Prod.mk.inj h2).1, (Prod.mk.inj h2).2⟩

/-- A thread sends to a client; between lookup and use the client disconnects, and its entry and its connection are deleted. -/
def SendRace.clientRun : List Act := [.create, .setup 7 0, .call 0 7, .del 7, .drop 0, .sstep 0, .sstep 0]

/-- A thread that sends to a client uses the entry of the client after the dispatcher has deleted it. -/
theorem C97_violated_clients : ∃ s, run false (init 1) clientRun = some s ∧ s.uaf = true := by
  have h : (run false (init 1) clientRun).map (·.uaf) = some true := by decide +kernel
  obtain ⟨s, h1, h2⟩ := Option.map_eq_some_iff.mp h
  exact ⟨s, h1, h2⟩

/-- Also when something else keeps the connection: the entry is gone. -/
example : (run false (init 1) [.create, .setup 7 0, .call 0 7, .del 7, .sstep 0]).map (fun s => (s.live 0, s.uaf)) = some (true, true) := by decide +kernel

/-- The full statement fails. -/
theorem C97_violated : ¬ C97_statement := by
  intro h
  obtain ⟨s, h1, h2⟩ := C97_violated_peers
  have := (h true 1 _ s h1).1
  rw [h2] at this; cases this

/-- A thread is between looking up and having its own reference (peers), or the end of its use of the connection (clients). -/
def SendRace.Looking (s : St) : Prop := ∃ p ∈ s.snd, p.looking = true

/-- No thread is looking up while the dispatcher replaces the connection of a peer, or, for clients, while it adds or removes one. -/
def SendRace.Proper (peers : Bool) (k : Nat) (as : List Act) : Prop := ∀ p ∈ trace peers (init k) as,
  (p.1.disp ≠ .idle → ¬ Looking p.1) ∧ (peers = false → ((∃ k c, p.2 = .setup k c) ∨ ∃ k, p.2 = .del k) → ¬ Looking p.1)

/-- In such runs the calls are safe.  (Missing: the overlaps excluded by `Proper`.) -/
theorem C97_proper_partial (peers : Bool) (k : Nat) (as : List Act) (s : St) (h : run peers (init k) as = some s) (hp : Proper peers k as) : Safe s := by
  have := i_run as (init k) s (i_init peers k) h (fun p hp' => ⟨fun h1 => not_looking ((hp p hp').1 h1), fun h1 h2 => not_looking ((hp p hp').2 h1 h2)⟩)
  exact ⟨this.safe, this.sent⟩

/-- The lock does what it is for: however sends interleave with adding and deleting peers, with other threads sending, and with connections made and dropped, they are safe as long as no handshake is finished. (Missing: handshakes.) -/
theorem C97_members_partial (k : Nat) (as : List Act) (s : St) (h : run true (init k) as = some s) (ha : ∀ a ∈ as, ∀ k c, a ≠ .assign k c) : Safe s := by
  refine C97_proper_partial true k as s h (fun p hp => ⟨fun hd => ?_, by simp⟩)
  exact absurd (trace_idle as (init k) rfl ha p hp) hd

/-- Calls that do not overlap with anything the dispatcher does to the table (as those of send_msg_deferred, which the dispatcher itself makes) are safe: each thread that looks up is alone with the table.  (Missing: overlaps.) -/
theorem C97_deferred_partial (peers : Bool) (k : Nat) (as : List Act) (s : St) (h : run peers (init k) as = some s)
    (ha : ∀ p ∈ trace peers (init k) as, Looking p.1 → p.1.disp = .idle ∧ ∃ i, p.2 = .sstep i) : Safe s := by
  refine C97_proper_partial peers k as s h (fun p hp => ⟨fun hd hl => hd (ha p hp hl).1, fun _ h2 hl => ?_⟩)
  obtain ⟨i, hi⟩ := (ha p hp hl).2
  rcases h2 with ⟨_, _, h2⟩ | ⟨_, h2⟩ <;> rw [hi] at h2 <;> cases h2

instance SendRace.decLooking (s : St) : Decidable (Looking s) := inferInstanceAs (Decidable (∃ p ∈ s.snd, p.looking = true))
instance SendRace.decTable (a : Act) : Decidable ((∃ k c, a = .setup k c) ∨ ∃ k, a = .del k) :=
  match a with
  | .setup k c => isTrue (.inl ⟨k, c, rfl⟩)
  | .del k => isTrue (.inr ⟨k, rfl⟩)
  | .create | .dup _ | .drop _ | .add _ | .assign _ _ | .dstep | .call _ _ | .sstep _ => isFalse (by simp)
instance SendRace.decProper (peers : Bool) (k : Nat) (as : List Act) : Decidable (Proper peers k as) :=
  inferInstanceAs (Decidable (∀ p ∈ trace peers (init k) as, _))

/-- Two threads send to a peer before, during (holding their reference) and after the replacement of its connection. -/
example :
    let as : List Act := [.add 7, .create, .call 0 7, .sstep 0, .sstep 0, .sstep 0, .sstep 0, .assign 7 1, .dstep, .dstep, .dstep, .drop 1, .sstep 0, .sstep 0, .sstep 0,
      .call 1 7, .sstep 1, .sstep 1, .sstep 1, .sstep 1, .sstep 1, .sstep 1, .sstep 1, .del 7]
    Proper true 2 as ∧ (run true (init 2) as).map (fun s => (s.sent, s.live 0, s.live 1)) = some ([(7, 0, some 0), (7, 1, some 1)], false, false) := by
  constructor <;> decide +kernel

/-- Two threads send while peers are added and deleted. -/
example :
    let as : List Act := [.add 7, .call 0 7, .sstep 0, .call 1 7, .sstep 0, .sstep 1, .sstep 0, .sstep 0, .sstep 1, .sstep 1, .sstep 1, .sstep 0, .sstep 0, .sstep 0,
      .sstep 1, .sstep 1, .sstep 1, .add 8, .del 7, .call 0 8, .sstep 0, .sstep 0]
    (∀ a ∈ as, ∀ k c, a ≠ .assign k c) ∧ (run true (init 2) as).map (fun s => (s.sent, s.live 0)) = some ([(7, 0, some 0), (7, 0, some 0)], false) := by
  constructor
  · simp
  · decide +kernel

/-- A client is sent to between two connections from its address. -/
example :
    let as : List Act := [.create, .setup 7 0, .call 0 7, .sstep 0, .sstep 0, .create, .setup 7 1, .drop 0, .call 0 7, .sstep 0, .sstep 0, .del 7, .drop 1]
    Proper false 1 as ∧ (run false (init 1) as).map (fun s => (s.sent, s.live 0)) = some ([(7, 0, some 0), (7, 1, some 1)], false) := by
  constructor <;> decide +kernel

end Salticidae
