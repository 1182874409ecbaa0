import Verif.Lemmas.Client
namespace Salticidae
open Client Spec.Client

/-! ## C53: connected clients are addressable -/

theorem valid_snoc {h : List Ev} {e : Ev} (v : Valid (h ++ [e])) : Valid h := by
  refine ⟨(List.nodup_append.mp v.1).1, fun c h1 h2 e2 hs => v.2 c h1 (h2 ++ [e]) (by simp [e2]) (by simp [hs])⟩

theorem valid_setup {h : List Ev} {c : Nat} (v : Valid (h ++ [.setup c])) : .teardown c ∉ h := by
  intro hm
  obtain ⟨h1, h2, rfl⟩ := List.append_of_mem hm
  exact v.2 c h1 (h2 ++ [.setup c]) (by simp) (by simp)

/-- For every history of connections, `send_msg(addr)` goes to the client connected from there, and throws
when there is none. -/
def C53_statement : Prop :=
  ∀ (addr : Nat → Nat) (h : List Ev), Valid h → ∀ a,
    sendMsg (run addr h) a = match current addr h a with
      | some c => .to c
      | none => .clientNotExist

/-- Not so: the client at 7 reconnects, and the teardown of its former connection removes the entry of
the new one: the connected client cannot be reached. -/
theorem C53_violated : ¬ C53_statement := by
  intro h
  have := h (fun _ => 7) [.setup 0, .setup 1, .teardown 0]
    ⟨by decide, fun c h1 h2 e hs => by
      rcases h1 with _ | ⟨x, _ | ⟨y, _ | ⟨z, h1⟩⟩⟩ <;> simp at e
      · obtain ⟨_, _, _, rfl⟩ := e; cases hs⟩ 7
  revert this
  decide

/-- Whatever happens, a message that is not refused goes to the client connected from that address now: in
particular the call throws when nobody is connected from there. -/
theorem C53_never_stale (addr : Nat → Nat) (h : List Ev) (v : Valid h) (a c : Nat)
    (hs : sendMsg (run addr h) a = .to c) :
    current addr h a = some c ∧ addr c = a ∧ .setup c ∈ h ∧ .teardown c ∉ h := by
  suffices k : ∀ c, lookup (run addr h) a = some c → current addr h a = some c by
    have : current addr h a = some c := k c (by unfold sendMsg at hs; split at hs <;> simp_all)
    exact ⟨this, current_mem this⟩
  clear hs c
  induction h using history_ind with
  | h0 => intro c hc; simp [run, lookup] at hc
  | h1 h e ih =>
    intro c hc
    have ih := ih (valid_snoc v)
    rw [run_snoc, lookup_step] at hc
    cases e with
    | setup d =>
      rw [current_setup (valid_setup v)]
      simp only at hc
      split <;> rename_i h1
      · rw [if_pos h1] at hc; exact hc
      · rw [if_neg h1] at hc; exact ih c hc
    | teardown d =>
      simp only at hc
      by_cases h1 : a = addr d
      · rw [if_pos h1] at hc; cases hc
      · rw [if_neg h1] at hc
        rw [current_teardown_other h1]
        exact ih c hc

/-- When connections from one address do not overlap, `send_msg` does what it should. Missing: the case of C53_violated. -/
theorem C53_addressable_partial (addr : Nat → Nat) (h : List Ev) (v : Valid h) (ho : NoOverlap addr h) (a : Nat) :
    sendMsg (run addr h) a = match current addr h a with
      | some c => .to c
      | none => .clientNotExist := by
  suffices k : lookup (run addr h) a = current addr h a by
    unfold sendMsg; rw [k]; cases current addr h a <;> rfl
  induction h using history_ind with
  | h0 => rfl
  | h1 h e ih =>
    have ih := ih (valid_snoc v) (fun c h1 h2 e2 => ho c h1 (h2 ++ [e]) (by simp [e2]))
    rw [run_snoc, lookup_step]
    cases e with
    | setup d =>
      rw [current_setup (valid_setup v)]
      simp only
      split
      · rfl
      · exact ih
    | teardown d =>
      simp only
      by_cases h1 : a = addr d
      · rw [if_pos h1]
        symm
        subst h1
        have hd := ho d h [] (by simp)
        rw [current_none]
        intro c hc hs
        have hch : .setup c ∈ h := by simpa using hs
        rcases Classical.em (Ev.teardown c ∈ h) with ht | ht
        · simp [ht]
        · simp [hd c hc hch ht]
      · rw [if_neg h1, current_teardown_other h1]
        exact ih

/-- Non-vacuity: 7 connects twice, one after the other, with another client in between. -/
example : Valid [.setup 0, .setup 2, .teardown 0, .setup 1] ∧
    NoOverlap (fun c => if c = 2 then 9 else 7) [.setup 0, .setup 2, .teardown 0, .setup 1] ∧
    sendMsg (run (fun c => if c = 2 then 9 else 7) [.setup 0, .setup 2, .teardown 0, .setup 1]) 7 = .to 1 := by
  refine ⟨⟨by decide, ?_⟩, ?_, by decide⟩
  · intro c h1 h2 e hs
    rcases h1 with _ | ⟨x, _ | ⟨y, _ | ⟨z, _ | ⟨w, h1⟩⟩⟩⟩ <;> simp at e
    obtain ⟨_, _, rfl, rfl⟩ := e
    simp at hs
  · intro c h1 h2 e d hd h3 h4
    rcases h1 with _ | ⟨x, _ | ⟨y, _ | ⟨z, _ | ⟨w, h1⟩⟩⟩⟩ <;> simp at e
    obtain ⟨rfl, rfl, rfl, rfl⟩ := e
    simp at h3
    rcases h3 with rfl | rfl
    · rfl
    · simp at hd

end Salticidae
