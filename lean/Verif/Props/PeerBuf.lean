import Verif.Spec.PeerBuf
/-!
Property C61: messages queued for a peer and its reconnection.
-/
namespace Salticidae
open PeerBuf Spec.PeerBuf

namespace PeerBuf

theorem upd_self (f : Nat → Conn) (i : Nat) (c : Conn) : upd f i c i = c := by simp [upd]
theorem upd_other (f : Nat → Conn) {i j : Nat} (c : Conn) (h : j ≠ i) : upd f i c j = f j := by simp [upd, h]

theorem run_ind {P : St → Prop} {Q : St → Act → Prop} (hs : ∀ s a s', P s → Q s a → step s a = some s' → P s') :
    ∀ (l : List Act) (s s' : St), P s → (∀ e ∈ trace s l, Q e.1 e.2) → run s l = some s' → P s'
  | [], s, s', h, _, e => by cases e; exact h
  | a :: l, s, s', h, hq, e => by
    simp only [run] at e
    cases hx : step s a with
    | none => rw [hx] at e; cases e
    | some u =>
      rw [hx] at e
      simp only [trace, hx, List.mem_cons, forall_eq_or_imp] at hq
      exact run_ind hs l u s' (hs s a u h hq.1 hx) hq.2 e

/-- The bytes of a connection: what the kernel has taken and what is queued is what was written. -/
def Bytes (c : Conn) : Prop := c.wire ++ c.queue.flatten = c.got.flatten

theorem bytes_write {c : Conn} (m : Seg) (h : Bytes c) : Bytes (c.write m) := by
  unfold Bytes at *
  simp only [Conn.write, List.flatten_append, List.flatten_singleton]
  rw [← List.append_assoc, h]

theorem bytes_send {c : Conn} (n : Nat) (h : Bytes c) : Bytes (c.send n) := by
  unfold Conn.send
  split
  · exact h
  · rename_i s q hq
    unfold Bytes at *
    rw [hq] at h
    split
    · simp only [List.flatten_cons, List.append_assoc] at h ⊢
      rw [← h, ← List.append_assoc (s.take n), List.take_append_drop]
    · simp only [List.flatten_cons, List.append_assoc] at h ⊢
      rw [← h]

/-- What holds in every history. -/
structure Inv (s : St) : Prop where
  cur : s.cur < s.next
  chosen : ∀ n, s.chosen = some n → n < s.next ∧ n ≠ s.cur
  calls : ∀ m c, (m, c) ∈ s.calls → c < s.next
  bytesC : s.chosen = none → Bytes (s.conns s.cur)
  bytesN : ∀ n, s.chosen = some n → Bytes (s.conns n)

theorem inv_init : Inv init := ⟨by decide, by simp [init], by simp [init], fun _ => rfl, by simp [init]⟩

theorem mem_eraseIdx {α : Type} {l : List α} {i : Nat} {x : α} (h : x ∈ l.eraseIdx i) : x ∈ l :=
  (List.eraseIdx_sublist l i).subset h

theorem inv_step (s : St) (a : Act) (s' : St) (k : Inv s) (h : step s a = some s') : Inv s' := by
  cases a with
  | look m =>
    simp only [step] at h
    split at h
    · cases h
    · simp only [Option.some.injEq] at h
      subst h
      refine ⟨k.cur, k.chosen, ?_, k.bytesC, k.bytesN⟩
      intro m' c hm
      simp only [List.mem_append, List.mem_singleton, Prod.mk.injEq] at hm
      rcases hm with hm | hm
      · exact k.calls m' c hm
      · rw [hm.2]; exact k.cur
  | put i ok =>
    simp only [step] at h
    split at h
    · cases h
    rename_i m c hc
    split at h
    · simp only [Option.some.injEq] at h
      subst h
      refine ⟨k.cur, k.chosen, fun m' c' hm => k.calls m' c' (mem_eraseIdx hm), fun hn => ?_, fun n hn => ?_⟩
      · show Bytes (upd s.conns c ((s.conns c).write m) s.cur)
        by_cases e : s.cur = c
        · rw [← e, upd_self]; exact bytes_write m (k.bytesC hn)
        · rw [upd_other _ _ e]; exact k.bytesC hn
      · show Bytes (upd s.conns c ((s.conns c).write m) n)
        by_cases e : n = c
        · rw [← e, upd_self]; exact bytes_write m (k.bytesN n hn)
        · rw [upd_other _ _ e]; exact k.bytesN n hn
    · simp only [Option.some.injEq] at h
      subst h
      exact ⟨k.cur, k.chosen, fun m' c' hm => k.calls m' c' (mem_eraseIdx hm), k.bytesC, k.bytesN⟩
  | kernel c n =>
    simp only [step] at h
    split at h
    · cases h
    · simp only [Option.some.injEq] at h
      subst h
      refine ⟨k.cur, k.chosen, k.calls, fun hn => ?_, fun x hn => ?_⟩
      · show Bytes (upd s.conns c ((s.conns c).send n) s.cur)
        by_cases e : s.cur = c
        · rw [← e, upd_self]; exact bytes_send n (k.bytesC hn)
        · rw [upd_other _ _ e]; exact k.bytesC hn
      · show Bytes (upd s.conns c ((s.conns c).send n) x)
        by_cases e : x = c
        · rw [← e, upd_self]; exact bytes_send n (k.bytesN x hn)
        · rw [upd_other _ _ e]; exact k.bytesN x hn
  | die c =>
    simp only [step, Option.some.injEq] at h
    subst h
    refine ⟨k.cur, k.chosen, k.calls, fun hn => ?_, fun x hn => ?_⟩
    · show Bytes (upd s.conns c _ s.cur)
      by_cases e : s.cur = c
      · rw [← e, upd_self]; exact k.bytesC hn
      · rw [upd_other _ _ e]; exact k.bytesC hn
    · show Bytes (upd s.conns c _ x)
      by_cases e : x = c
      · rw [← e, upd_self]; exact k.bytesN x hn
      · rw [upd_other _ _ e]; exact k.bytesN x hn
  | begin hello =>
    simp only [step] at h
    split at h
    · simp only [Option.some.injEq] at h
      subst h
      refine ⟨Nat.lt_succ_of_lt k.cur, ?_, fun m c hm => Nat.lt_succ_of_lt (k.calls m c hm), by simp, ?_⟩
      · intro n hn
        simp only [Option.some.injEq] at hn
        have := k.cur
        simp only
        omega
      · intro n hn
        simp only [Option.some.injEq] at hn
        subst hn
        show Bytes (upd s.conns s.next _ s.next)
        rw [upd_self]
        rfl
    · cases h
  | drain ok =>
    simp only [step] at h
    split at h
    · cases h
    rename_i n hn
    split at h
    · cases h
    rename_i m q hq
    split at h
    · cases h
    simp only [Option.some.injEq] at h
    obtain ⟨_, hne⟩ := k.chosen n hn
    cases ok
    · simp only [Bool.false_eq_true, if_false] at h
      subst h
      refine ⟨k.cur, k.chosen, k.calls, (fun h => by rw [hn] at h; cases h), fun x hx => ?_⟩
      have : x = n := by have hx : s.chosen = some x := hx; rw [hn] at hx; exact (Option.some.inj hx).symm
      subst this
      show Bytes (upd s.conns s.cur _ x)
      rw [upd_other _ _ hne]
      exact k.bytesN x hn
    · simp only [if_true] at h
      subst h
      refine ⟨k.cur, k.chosen, k.calls, (fun h => by rw [hn] at h; cases h), fun x hx => ?_⟩
      have : x = n := by have hx : s.chosen = some x := hx; rw [hn] at hx; exact (Option.some.inj hx).symm
      subst this
      show Bytes (upd _ x _ x)
      rw [upd_self]
      apply bytes_write
      rw [upd_other _ _ hne]
      exact k.bytesN x hn
  | empty =>
    simp only [step] at h
    split at h
    · cases h
    · simp only [Option.some.injEq] at h
      subst h
      exact ⟨k.cur, k.chosen, k.calls, k.bytesC, k.bytesN⟩
  | swap =>
    simp only [step] at h
    split at h
    · cases h
    rename_i n hn
    split at h
    · simp only [Option.some.injEq] at h
      subst h
      exact ⟨(k.chosen n hn).1, by simp, k.calls, fun _ => k.bytesN n hn, by simp⟩
    · cases h

/-- What holds when connections are lost between messages, nothing races, and there is room. -/
structure Good (s : St) : Prop extends Inv s where
  got : ∀ c, ∀ m ∈ (s.conns c).got, Whole s m
  cut : ∀ c, (s.conns c).dead = true → (s.conns c).cut = false
  queue : ∀ c, ∀ m ∈ (s.conns c).queue.tail, Whole s m
  first : ∀ c, (s.conns c).cut = false → ∀ m ∈ (s.conns c).queue.head?, Whole s m
  alive : (s.conns s.cur).dead = false → s.waiting = []
  none : s.chosen = none → s.waiting.Sublist (s.conns s.cur).queue
  some : ∀ n, s.chosen = some n → (s.conns s.cur).dead = true ∧ s.waiting.Sublist ((s.conns n).got ++ (s.conns s.cur).queue)
  drained : s.drained = true → (s.conns s.cur).queue = []
  fresh : ∀ c, s.next ≤ c → s.conns c = ⟨[], true, false, [], []⟩

theorem good_init : Good init :=
  ⟨inv_init, by simp [init], by simp [init], by simp [init], by simp [init], by simp [init], by simp [init], by simp [init],
   by simp [init], by simp [init]⟩

/-- Change of one connection. -/
theorem all_upd {P : Conn → Prop} {f : Nat → Conn} {i : Nat} {c : Conn} (h : ∀ j, P (f j)) (hc : P c) : ∀ j, P (upd f i c j) := by
  intro j
  by_cases e : j = i
  · rw [e, upd_self]; exact hc
  · rw [upd_other _ _ e]; exact h j

theorem mem_tail_append {q : List Seg} {m x : Seg} (h : x ∈ (q ++ [m]).tail) : x ∈ q.tail ∨ x = m := by
  cases q with
  | nil => simp at h
  | cons y q => simpa using h

theorem mem_head_append {q : List Seg} {m x : Seg} (h : x ∈ (q ++ [m]).head?) : x ∈ q.head? ∨ x = m := by
  cases q with
  | nil => right; simpa using h.symm
  | cons y q => left; simpa using h

theorem good_step (s : St) (a : Act) (s' : St) (k : Good s) (hq : BetweenMessages s a ∧ NotRacing s a ∧ Room a) (h : step s a = some s') :
    Good s' := by
  have ki := inv_step s a s' k.toInv h
  cases a with
  | look m =>
    simp only [step] at h
    split at h
    · cases h
    · simp only [Option.some.injEq] at h
      subst h
      exact ⟨ki, k.got, k.cut, k.queue, k.first, k.alive, k.none, k.some, k.drained, k.fresh⟩
  | put i ok =>
    simp only [step] at h
    split at h
    · cases h
    rename_i m c hc
    have hcur : c = s.cur := hq.2.1.2 m c hc
    have hdr : s.drained = false := hq.2.1.1
    subst hcur
    split at h
    · simp only [Option.some.injEq] at h
      subst h
      have mono : ∀ x, Whole s x → x ∈ s.accepted ++ [m] ∨ x ∈ s.lib := by
        intro x hx
        rcases hx with hx | hx
        · exact .inl (List.mem_append_left _ hx)
        · exact .inr hx
      have new : m ∈ s.accepted ++ [m] ∨ m ∈ s.lib := .inl (by simp)
      refine ⟨ki, ?_, ?_, ?_, ?_, ?_, ?_, ?_, ?_, ?_⟩
      · refine all_upd (P := fun c => ∀ x ∈ c.got, x ∈ s.accepted ++ [m] ∨ x ∈ s.lib) (fun j x hx => mono x (k.got j x hx)) ?_
        intro x hx
        simp only [Conn.write, List.mem_append, List.mem_singleton] at hx
        rcases hx with hx | hx
        · exact mono x (k.got _ x hx)
        · rw [hx]; exact new
      · exact all_upd (P := fun c => c.dead = true → c.cut = false) k.cut (k.cut s.cur)
      · refine all_upd (P := fun c => ∀ x ∈ c.queue.tail, x ∈ s.accepted ++ [m] ∨ x ∈ s.lib) (fun j x hx => mono x (k.queue j x hx)) ?_
        intro x hx
        rcases mem_tail_append hx with hx | hx
        · exact mono x (k.queue _ x hx)
        · rw [hx]; exact new
      · refine all_upd (P := fun c => c.cut = false → ∀ x ∈ c.queue.head?, x ∈ s.accepted ++ [m] ∨ x ∈ s.lib)
          (fun j hj x hx => mono x (k.first j hj x hx)) ?_
        intro hj x hx
        rcases mem_head_append hx with hx | hx
        · exact mono x (k.first _ hj x hx)
        · rw [hx]; exact new
      · intro hd
        simp only [upd_self, Conn.write] at hd
        simp only [hd, Bool.false_eq_true, if_false]
        exact k.alive hd
      · intro hn
        simp only [upd_self, Conn.write]
        split
        · exact (k.none hn).append_right _
        · exact (k.none hn).trans (List.sublist_append_left _ _)
      · intro n hn
        have hne : n ≠ s.cur := (k.chosen n hn).2
        obtain ⟨hd, hs⟩ := k.some n hn
        simp only [upd_self, upd_other _ _ hne, Conn.write]
        refine ⟨hd, ?_⟩
        rw [if_pos hd, ← List.append_assoc]
        exact hs.append_right _
      · intro hd
        have hd : s.drained = true := hd
        rw [hdr] at hd; cases hd
      · intro c hc
        have : c ≠ s.cur := by have := k.cur; simp only at hc; omega
        show upd _ _ _ c = _
        rw [upd_other _ _ this]
        exact k.fresh c hc
    · simp only [Option.some.injEq] at h
      subst h
      exact ⟨ki, k.got, k.cut, k.queue, k.first, k.alive, k.none, k.some, k.drained, k.fresh⟩
  | kernel c n =>
    simp only [step] at h
    split at h
    · cases h
    rename_i hdead
    simp only [Bool.not_eq_true] at hdead
    · simp only [Option.some.injEq] at h
      subst h
      have hgot : ((s.conns c).send n).got = (s.conns c).got := by
        unfold Conn.send
        split
        · rfl
        · split <;> rfl
      have hde : ((s.conns c).send n).dead = (s.conns c).dead := by
        unfold Conn.send
        split
        · rfl
        · split <;> rfl
      refine ⟨ki, ?_, ?_, ?_, ?_, ?_, ?_, ?_, ?_, ?_⟩
      · refine all_upd (P := fun c => ∀ x ∈ c.got, Whole s x) k.got ?_
        rw [hgot]; exact k.got c
      · refine all_upd (P := fun c => c.dead = true → c.cut = false) k.cut ?_
        rw [hde, hdead]; simp
      · refine all_upd (P := fun c => ∀ x ∈ c.queue.tail, Whole s x) k.queue ?_
        unfold Conn.send
        split
        · exact k.queue c
        · rename_i x q hx
          split
          · have := k.queue c
            rw [hx] at this
            exact this
          · have := k.queue c
            rw [hx] at this
            intro y hy
            exact this y (List.mem_of_mem_tail hy)
      · refine all_upd (P := fun c => c.cut = false → ∀ x ∈ c.queue.head?, Whole s x) k.first ?_
        unfold Conn.send
        split
        · exact k.first c
        · rename_i x q hx
          have h1 := k.queue c
          have h2 := k.first c
          rw [hx] at h1 h2
          split
          · intro hc y hy
            simp only [Bool.or_eq_false_iff, decide_eq_false_iff_not, Nat.not_lt, Nat.le_zero] at hc
            rw [hc.2] at hy
            exact h2 hc.1 y hy
          · intro _ y hy
            exact h1 y (List.mem_of_mem_head? hy)
      · intro hd
        by_cases e : s.cur = c
        · subst e; exact k.alive hdead
        · simp only [upd_other _ _ e] at hd; exact k.alive hd
      · intro hn
        show List.Sublist s.waiting _
        by_cases e : s.cur = c
        · subst e; rw [k.alive hdead]; exact List.nil_sublist _
        · simp only [upd_other _ _ e]; exact k.none hn
      · intro x hx
        obtain ⟨hd, hs⟩ := k.some x hx
        have e : s.cur ≠ c := by intro e; rw [e, hdead] at hd; cases hd
        simp only [upd_other _ _ e]
        refine ⟨hd, ?_⟩
        by_cases e' : x = c
        · subst e'; simp only [upd_self, hgot]; exact hs
        · simp only [upd_other _ _ e']; exact hs
      · intro hd
        have := k.drained hd
        simp only
        by_cases e : s.cur = c
        · subst e; rw [upd_self]; unfold Conn.send; rw [this]; exact this
        · rw [upd_other _ _ e]; exact this
      · intro x hx
        show upd _ _ _ x = _
        by_cases e : x = c
        · subst e; have := k.fresh x hx; rw [this] at hdead; cases hdead
        · rw [upd_other _ _ e]; exact k.fresh x hx
  | die c =>
    simp only [step, Option.some.injEq] at h
    subst h
    have hcut : (s.conns c).cut = false := hq.1
    refine ⟨ki, ?_, ?_, ?_, ?_, ?_, ?_, ?_, ?_, ?_⟩
    · exact all_upd (P := fun c => ∀ x ∈ c.got, Whole s x) k.got (k.got c)
    · exact all_upd (P := fun c => c.dead = true → c.cut = false) k.cut (fun _ => hcut)
    · exact all_upd (P := fun c => ∀ x ∈ c.queue.tail, Whole s x) k.queue (k.queue c)
    · exact all_upd (P := fun c => c.cut = false → ∀ x ∈ c.queue.head?, Whole s x) k.first (k.first c)
    · intro hd
      by_cases e : s.cur = c
      · subst e; simp only [upd_self] at hd; cases hd
      · simp only [upd_other _ _ e] at hd; exact k.alive hd
    · intro hn
      have := k.none hn
      by_cases e : s.cur = c
      · subst e; simp only [upd_self]; exact this
      · simp only [upd_other _ _ e]; exact this
    · intro x hx
      obtain ⟨hd, hs⟩ := k.some x hx
      have h1 : (upd s.conns c { s.conns c with dead := true } s.cur).dead = true := by
        by_cases e : s.cur = c
        · subst e; rw [upd_self]
        · rw [upd_other _ _ e]; exact hd
      have h2 : (upd s.conns c { s.conns c with dead := true } s.cur).queue = (s.conns s.cur).queue := by
        by_cases e : s.cur = c
        · subst e; rw [upd_self]
        · rw [upd_other _ _ e]
      have h3 : (upd s.conns c { s.conns c with dead := true } x).got = (s.conns x).got := by
        by_cases e : x = c
        · subst e; rw [upd_self]
        · rw [upd_other _ _ e]
      refine ⟨h1, ?_⟩
      simp only [h2, h3]; exact hs
    · intro hd
      have := k.drained hd
      simp only
      by_cases e : s.cur = c
      · subst e; rw [upd_self]; exact this
      · rw [upd_other _ _ e]; exact this
    · intro x hx
      show upd _ _ _ x = _
      by_cases e : x = c
      · subst e; rw [upd_self, k.fresh x hx]
      · rw [upd_other _ _ e]; exact k.fresh x hx
  | begin hello =>
    simp only [step] at h
    split at h
    · rename_i hc
      simp only [Bool.and_eq_true, beq_iff_eq] at hc
      simp only [Option.some.injEq] at h
      subst h
      have mono : ∀ x, Whole s x → x ∈ s.accepted ∨ x ∈ s.lib ++ hello := by
        intro x hx
        rcases hx with hx | hx
        · exact .inl hx
        · exact .inr (List.mem_append_left _ hx)
      have new : ∀ x ∈ hello, x ∈ s.accepted ∨ x ∈ s.lib ++ hello := fun x hx => .inr (List.mem_append_right _ hx)
      have hcur : s.cur ≠ s.next := Nat.ne_of_lt k.cur
      refine ⟨ki, ?_, ?_, ?_, ?_, ?_, ?_, ?_, ?_, ?_⟩
      · exact all_upd (P := fun c => ∀ x ∈ c.got, x ∈ s.accepted ∨ x ∈ s.lib ++ hello) (fun j x hx => mono x (k.got j x hx)) new
      · exact all_upd (P := fun c => c.dead = true → c.cut = false) k.cut (fun _ => rfl)
      · exact all_upd (P := fun c => ∀ x ∈ c.queue.tail, x ∈ s.accepted ∨ x ∈ s.lib ++ hello) (fun j x hx => mono x (k.queue j x hx))
          (fun x hx => new x (List.mem_of_mem_tail hx))
      · exact all_upd (P := fun c => c.cut = false → ∀ x ∈ c.queue.head?, x ∈ s.accepted ∨ x ∈ s.lib ++ hello)
          (fun j hj x hx => mono x (k.first j hj x hx)) (fun _ x hx => new x (List.mem_of_mem_head? hx))
      · intro hd
        simp only [upd_other _ _ hcur] at hd
        exact k.alive hd
      · intro hn; cases hn
      · intro x hx
        simp only [Option.some.injEq] at hx
        subst hx
        simp only [upd_self, upd_other _ _ hcur]
        exact ⟨hc.1.1, (k.none hc.1.2).trans (List.sublist_append_right _ _)⟩
      · intro hd; cases hd
      · intro x hx
        simp only at hx
        show upd _ _ _ x = _
        have : x ≠ s.next := by omega
        rw [upd_other _ _ this]
        exact k.fresh x (by omega)
    · cases h
  | drain ok =>
    have hok : ok = true := hq.2.2
    subst hok
    simp only [step] at h
    split at h
    · cases h
    rename_i n hn
    split at h
    · cases h
    rename_i m q hqq
    split at h
    · cases h
    rename_i hdr
    simp only [Option.some.injEq, if_true] at h
    obtain ⟨hlt, hne⟩ := k.chosen n hn
    obtain ⟨hd, hs⟩ := k.some n hn
    have hcut := k.cut _ hd
    have hm : Whole s m := k.first s.cur hcut m (by rw [hqq]; rfl)
    have hqt : ∀ x ∈ q, Whole s x := by
      have := k.queue s.cur
      rw [hqq] at this
      exact this
    subst h
    simp only [upd_other _ _ hne] at ki ⊢
    refine ⟨ki, ?_, ?_, ?_, ?_, ?_, ?_, ?_, ?_, ?_⟩
    · refine all_upd (P := fun c => ∀ x ∈ c.got, Whole s x) (all_upd (P := fun c => ∀ x ∈ c.got, Whole s x) k.got (k.got _)) ?_
      intro x hx
      simp only [Conn.write, List.mem_append, List.mem_singleton] at hx
      rcases hx with hx | hx
      · exact k.got _ x hx
      · rw [hx]; exact hm
    · exact all_upd (P := fun c => c.dead = true → c.cut = false) (all_upd (P := fun c => c.dead = true → c.cut = false) k.cut (fun _ => rfl)) (k.cut n)
    · refine all_upd (P := fun c => ∀ x ∈ c.queue.tail, Whole s x) (all_upd (P := fun c => ∀ x ∈ c.queue.tail, Whole s x) k.queue
        (fun x hx => hqt x (List.mem_of_mem_tail hx))) ?_
      intro x hx
      rcases mem_tail_append hx with hx | hx
      · exact k.queue _ x hx
      · rw [hx]; exact hm
    · refine all_upd (P := fun c => c.cut = false → ∀ x ∈ c.queue.head?, Whole s x)
        (all_upd (P := fun c => c.cut = false → ∀ x ∈ c.queue.head?, Whole s x) k.first (fun _ x hx => hqt x (List.mem_of_mem_head? hx))) ?_
      intro hj x hx
      rcases mem_head_append hx with hx | hx
      · exact k.first _ hj x hx
      · rw [hx]; exact hm
    · intro hd'
      simp only [upd_other _ _ (Ne.symm hne), upd_self] at hd'
      rw [hd] at hd'; cases hd'
    · intro h; simp only at h; rw [hn] at h; cases h
    · intro x hx
      have : x = n := by have hx : s.chosen = some x := hx; rw [hn] at hx; exact (Option.some.inj hx).symm
      subst this
      simp only [upd_other _ _ (Ne.symm hne), upd_self, Conn.write]
      refine ⟨hd, ?_⟩
      rw [hqq] at hs
      simpa using hs
    · intro h; exact absurd h hdr
    · intro x hx
      have h1 : x ≠ n := by simp only at hx; omega
      have h2 : x ≠ s.cur := by have := k.cur; simp only at hx; omega
      show upd _ _ _ x = _
      rw [upd_other _ _ h1, upd_other _ _ h2]
      exact k.fresh x hx
  | empty =>
    simp only [step] at h
    split at h
    · cases h
    · rename_i hc
      simp only [Option.some.injEq] at h
      subst h
      refine ⟨ki, k.got, k.cut, k.queue, k.first, k.alive, k.none, k.some, ?_, k.fresh⟩
      intro _
      simp only [Bool.or_eq_true, not_or, Bool.not_eq_true, Bool.not_eq_false', List.isEmpty_iff] at hc
      exact hc.2
  | swap =>
    simp only [step] at h
    split at h
    · cases h
    rename_i n hn
    split at h
    · simp only [Option.some.injEq] at h
      subst h
      exact ⟨ki, k.got, k.cut, k.queue, k.first, fun _ => rfl, fun _ => List.nil_sublist _, by simp, by simp, k.fresh⟩
    · cases h

end PeerBuf

/-- C61: whenever a connection takes over, it has been given the messages accepted since the previous one was lost, in order, and only whole messages. -/
def C61_statement : Prop :=
  ∀ (l : List PeerBuf.Act) (s s' : PeerBuf.St) (n : Nat), PeerBuf.run PeerBuf.init l = some s → s.chosen = some n →
    PeerBuf.step s .swap = some s' → TakesOver s n

/-- C61 fails: a connection is lost when the kernel has taken a part of a message; the rest of the message is sent on the next connection. -/
theorem C61_violated : ¬ C61_statement := by
  intro h
  have := (h [.begin [[9]], .empty, .swap, .look [1, 2, 3], .put 0 true, .kernel 1 1, .kernel 1 1, .die 1, .begin [[9]], .drain true, .empty]
    _ _ 2 rfl (by decide) rfl).2.1 [2, 3] (by decide)
  revert this
  simp [Whole, init]

/-- C61 fails also because a message is accepted by the old connection after its buffer has been moved and before the new one takes over: it is lost. -/
theorem C61_violated_race : ¬ C61_statement := by
  intro h
  have := (h [.begin [[9]], .look [1, 2, 3], .empty, .put 0 true] _ _ 1 rfl (by decide) rfl).1
  revert this
  decide

/-- C61 fails also because the result of write() is ignored when the messages are moved: with a bounded send buffer that is full they are lost. -/
theorem C61_violated_full : ¬ C61_statement := by
  intro h
  have := (h [.look [1, 2, 3], .put 0 true, .begin [[9]], .drain false, .empty] _ _ 1 rfl (by decide) rfl).1
  revert this
  decide

/-- C61, proved part: it holds when connections are lost between messages, no message is written to the old connection
after its buffer has been moved, and there is room in the new buffer. Missing: see `C61_violated`, `C61_violated_race` and `C61_violated_full`. -/
theorem C61_survive_partial (l : List PeerBuf.Act) (s s' : PeerBuf.St) (n : Nat) (h : PeerBuf.run PeerBuf.init l = some s) (hn : s.chosen = some n)
    (hs : PeerBuf.step s .swap = some s')
    (hq : ∀ e ∈ PeerBuf.trace PeerBuf.init l, BetweenMessages e.1 e.2 ∧ NotRacing e.1 e.2 ∧ Room e.2) : TakesOver s n := by
  have k := PeerBuf.run_ind (P := Good) good_step l _ s good_init hq h
  refine ⟨?_, k.got n, k.bytesN n hn⟩
  simp only [PeerBuf.step, hn] at hs
  split at hs
  · rename_i hd
    have := (k.some n hn).2
    rw [k.drained hd, List.append_nil] at this
    exact this
  · cases hs

/-- C61, proved part, for every history: the bytes sent on the connection that takes over, and those queued for it, are the segments written to it, in order. -/
theorem C61_bytes_partial (l : List PeerBuf.Act) (s : PeerBuf.St) (n : Nat) (h : PeerBuf.run PeerBuf.init l = some s)
    (hn : s.chosen = some n ∨ (s.chosen = none ∧ s.cur = n)) :
    (s.conns n).wire ++ (s.conns n).queue.flatten = (s.conns n).got.flatten := by
  have k := PeerBuf.run_ind (P := PeerBuf.Inv) (Q := fun _ _ => True) (fun s a s' k _ h => PeerBuf.inv_step s a s' k h) l _ s PeerBuf.inv_init
    (fun _ _ => trivial) h
  rcases hn with hn | ⟨hn, rfl⟩
  · exact k.bytesN n hn
  · exact k.bytesC hn

/-- The hypotheses of `C61_survive_partial` are met by a history in which a message is sent in two parts, the connection is lost, with another one unsent, and two more are
sent while the peer is not connected. -/
def exampleHistory61 : List PeerBuf.Act :=
  [.begin [[9]], .empty, .swap, .look [7, 7], .put 0 true, .look [1, 2, 3], .put 0 true, .kernel 1 1, .kernel 1 1, .kernel 1 1, .die 1, .look [4, 5], .put 0 true, .begin [[8]], .look [6],
   .drain true, .put 0 true, .drain true, .drain true, .kernel 2 1, .empty]

example : (PeerBuf.run PeerBuf.init exampleHistory61).map (fun s => (s.chosen, s.waiting, (s.conns 2).got)) =
    some (some 2, [[4, 5], [6]], [[8], [1, 2, 3], [4, 5], [6]]) := by decide
example : ((PeerBuf.run PeerBuf.init exampleHistory61).bind (PeerBuf.step · .swap)).isSome = true := by decide
example : ∀ e ∈ PeerBuf.trace PeerBuf.init exampleHistory61, BetweenMessages e.1 e.2 ∧ NotRacing e.1 e.2 ∧ Room e.2 := by
  have hb : (PeerBuf.trace PeerBuf.init exampleHistory61).all (fun e => decide (BetweenMessages e.1 e.2) && decide (Room e.2) &&
      (match e.2 with
        | .put i _ => !e.1.drained && (match e.1.calls[i]? with
          | some (_, c) => c == e.1.cur
          | none => true)
        | _ => true)) = true := by decide
  intro e he
  have := List.all_eq_true.1 hb e he
  simp only [Bool.and_eq_true, decide_eq_true_eq] at this
  refine ⟨this.1.1, ?_, this.1.2⟩
  obtain ⟨s, a⟩ := e
  cases a <;> try trivial
  rename_i i ok
  have h2 := this.2
  simp only [Bool.and_eq_true, Bool.not_eq_true'] at h2
  refine ⟨h2.1, fun m c hc => ?_⟩
  have hc : s.calls[i]? = some (m, c) := hc
  have h3 := h2.2
  rw [hc] at h3
  simpa using h3

end Salticidae
