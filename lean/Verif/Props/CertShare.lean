import Verif.Lemmas.CertShare
/-!
C114: one certificate for several networks.
-/
namespace Salticidae
open CertShare Spec.CertShare

/-! ### C114 -/

/-- What a program relies on, in a state `s` of a program with `n` threads: the certificate has not been used after its destruction; it has been destroyed at most once,
not as long as a Config or a network has it; and when no one has it and no call is being executed, it has been destroyed. -/
def CertShare.Good (n : Nat) (s : St) : Prop :=
  s.bad = false ∧ s.dead ≤ 1 ∧ (s.held ≠ [] → s.dead = 0) ∧ (s.held = [] → (∀ k < n, s.th k = .idle) → s.dead = 1)

/-- With any number of threads, of Configs and of networks. -/
def C114_statement : Prop := ∀ (n : Nat) (as : List Act) (s : St), run n init as = some s → Good n s

/-- It is so if no call is made while another one is being executed.  Missing: `C114_violated`. -/
theorem C114_one_by_one_partial (n : Nat) (as : List Act) (s : St) (h : run n init as = some s) (hq : OneByOne n init as) : Good n s := by
  obtain ⟨j, i⟩ := inv_run ⟨0, inv_init n⟩ h hq
  refine ⟨i.bad, by rw [i.dead]; split <;> omega, fun hn => by rw [i.dead, if_neg hn], fun hn _ => by rw [i.dead, if_pos hn]⟩

/-- So it is in programs that make, use and destroy Configs and networks in one thread only, whatever the networks' own threads do. -/
theorem C114_single_partial (as : List Act) (s : St) (h : run 1 init as = some s) : Good 1 s :=
  C114_one_by_one_partial 1 as s h (single init)

/-- `k` steps of a thread. -/
def CertShare.go (j k : Nat) : List Act := List.replicate k (.go j)

/-- Two networks, 1 and 2, are made from Config 0. -/
def CertShare.made : List Act := [.call 0 (.copy 0 1)] ++ go 0 3 ++ [.call 0 (.copy 0 2)] ++ go 0 3

/-- Both are told to listen by a thread each; their dispatchers copy the certificate at the same time. -/
def CertShare.both : List Act := made ++ [.call 0 (.listen 1), .call 1 (.listen 2), .go 0, .go 1, .go 0, .go 1] ++ go 0 3 ++ go 1 3

/-- The certificate is destroyed with the Config and the first network, while the second one has it; that one is told to listen at another address. -/
def CertShare.early : List Act := both ++ [.call 0 (.drop 0)] ++ go 0 2 ++ [.call 0 (.drop 1)] ++ go 0 2

/-- Two threads lose an update of the count: the certificate is destroyed while the second network has it. -/
theorem C114_violated : ¬ C114_statement := by
  intro h
  have e : (run 2 init early).map (fun s => (s.held, s.dead)) = some ([2], 1) := by decide +kernel
  obtain ⟨s, hs, he⟩ := Option.map_eq_some_iff.mp e
  simp only [Prod.mk.injEq] at he
  have := (h 2 early s hs).2.2.1 (by rw [he.1]; simp)
  omega

/-- It is then used after its destruction. -/
theorem C114_violated_use : ∃ s, run 2 init (early ++ [.call 1 (.listen 2)] ++ go 1 3) = some s ∧ s.bad = true := by
  have e : (run 2 init (early ++ [.call 1 (.listen 2)] ++ go 1 3)).map (·.bad) = some true := by decide +kernel
  exact Option.map_eq_some_iff.mp e

/-- In other schedules it is never destroyed: two networks are destroyed at the same time. -/
theorem C114_violated_leak : ∃ s, run 2 init (made ++ [.call 0 (.drop 1), .call 1 (.drop 2), .go 0, .go 1, .go 0, .go 1, .call 0 (.drop 0), .go 0, .go 0]) = some s ∧
    s.held = [] ∧ (∀ k < 2, s.th k = .idle) ∧ s.dead = 0 := by
  have e : (run 2 init (made ++ [.call 0 (.drop 1), .call 1 (.drop 2), .go 0, .go 1, .go 0, .go 1, .call 0 (.drop 0), .go 0, .go 0])).map
      (fun s => ((s.held, s.dead), s.th 0, s.th 1)) = some (([], 0), .idle, .idle) := by decide +kernel
  obtain ⟨s, hs, he⟩ := Option.map_eq_some_iff.mp e
  simp only [Prod.mk.injEq] at he
  refine ⟨s, hs, he.1.1, fun k hk => ?_, he.1.2⟩
  have : k = 0 ∨ k = 1 := by omega
  rcases this with e | e <;> subst e
  · exact he.2.1
  · exact he.2.2

/-- The program may make any call while any others are being executed, unless it clashes with one of them. -/
theorem CertShare.allows_iff (o o' : Op) : o.allows o' = true ↔ ¬ Clash o o' := by
  cases o <;> cases o' <;> simp [Op.allows, Op.about, Clash, changes, names] <;> grind

/-- A thread can make a call exactly if it is at rest, the program has what the call is for, and no other thread executes a call that clashes with it. -/
theorem CertShare.can_call (n : Nat) (s : St) (j : Nat) (o : Op) (hj : j < n) (hi : s.th j = .idle) :
    (step n s (.call j o)).isSome = true ↔ o.ok s.held = true ∧ ∀ k < n, ∀ p, s.th k ≠ .idle → (s.th k).op = some p → ¬ Clash p o := by
  have e : (∀ k < n, ∀ o' ∈ (s.th k).op, o'.allows o = true) ↔ ∀ k < n, ∀ p, s.th k ≠ .idle → (s.th k).op = some p → ¬ Clash p o := by
    constructor
    · intro h k hk p _ hp; exact (allows_iff p o).mp (h k hk p hp)
    · intro h k hk p hp
      refine (allows_iff p o).mpr (h k hk p (fun e => ?_) hp)
      rw [e] at hp; cases hp
  simp only [step]
  split
  · rename_i h; simp only [Option.isSome_some, true_iff]; exact ⟨h.2.2.1, e.mp h.2.2.2⟩
  · rename_i h; simp only [Option.isSome_none, Bool.false_eq_true, false_iff]; intro k; exact h ⟨hj, hi, k.1, e.mpr k.2⟩

/-- A thread that is not at rest executes the call that it made. -/
example (n : Nat) (s t : St) (j : Nat) (o : Op) (h : step n s (.call j o) = some t) : (t.th j).op = some o := by
  simp only [step] at h
  split at h
  · cases h; cases o <;> simp [setTh, Pc.op]
  · cases h
/-- ... until it is at rest again. -/
example (n : Nat) (s t : St) (j : Nat) (h : step n s (.go j) = some t) : t.th j = .idle ∨ (t.th j).op = (s.th j).op ∧ (s.th j).op ≠ none := by
  simp only [step] at h
  split at h
  · cases e : s.th j with
    | idle => rw [e] at h; cases h
    | inc o => rw [e] at h; cases h; right; simp [setTh, Pc.op]
    | inc' o r => rw [e] at h; cases h; right; simp [setTh, Pc.op]
    | use o =>
      rw [e] at h
      cases o <;> cases h
      · left; simp [setTh]
      · right; simp [setTh, Pc.op]
      · right; simp [setTh, Pc.op]
    | dec o => rw [e] at h; cases h; right; simp [setTh, Pc.op]
    | dec' o r => rw [e] at h; cases h; left; simp [setTh]
  · cases h

/-- What `bad` records: the count of a certificate that has been destroyed is read, ... -/
example : (run 2 init (early ++ [.call 1 (.listen 2)])).map (·.bad) = some false ∧
    (run 2 init (early ++ [.call 1 (.listen 2)] ++ go 1 1)).map (·.bad) = some true := by decide +kernel
/-- ... or the certificate is used, having been destroyed since its handle was copied. -/
def CertShare.late : List Act := both ++ [.call 0 (.listen 1), .call 1 (.listen 2), .go 0, .go 1, .go 0, .go 1] ++ go 0 3 ++ go 1 3 ++
  [.call 1 (.listen 2)] ++ go 1 2 ++ [.call 0 (.drop 0)] ++ go 0 2 ++ [.call 0 (.drop 1)] ++ go 0 2
example : (run 2 init late).map (fun s => (s.dead, s.bad)) = some (1, false) ∧ (run 2 init (late ++ go 1 1)).map (fun s => (s.dead, s.bad)) = some (1, true) := by
  decide +kernel

/-- A thread makes two networks, destroys the Config, has both listen, and destroys them; then the certificate is destroyed. -/
example : (run 1 init (made ++ [.call 0 (.drop 0)] ++ go 0 2 ++ [.call 0 (.listen 1)] ++ go 0 5 ++ [.call 0 (.listen 2)] ++ go 0 5)).map
    (fun s => (s.held, s.cnt, s.dead, s.bad)) = some ([1, 2], 2, 0, false) := by decide +kernel
example : (run 1 init (made ++ [.call 0 (.drop 0)] ++ go 0 2 ++ [.call 0 (.listen 1)] ++ go 0 5 ++ [.call 0 (.drop 1)] ++ go 0 2 ++ [.call 0 (.drop 2)] ++ go 0 2)).map
    (fun s => (s.held, s.cnt, s.live, s.dead, s.bad)) = some ([], 0, false, 1, false) := by decide +kernel
/-- Two threads, one after the other. -/
example : (run 2 init (made ++ [.call 1 (.listen 2)] ++ go 1 5 ++ [.call 0 (.drop 1)] ++ go 0 2)).map
    (fun s => (s.held, s.cnt, s.dead, s.bad)) = some ([0, 2], 2, 0, false) := by decide +kernel

end Salticidae
