import Verif.Spec.SendRoom
import Verif.Lemmas.SendRoom
/-!
C123: the room for messages to a peer that is not connected yet.
-/
namespace Salticidae
open Queue Spec.Queue Spec.SendRoom
open SendRoom (Born blockSize given write)

/-- C123: a connection's write (so send_msg) accepts as many messages as max_send_buff_size says, whichever way the connection object came about: `acceptedCount n o` messages have been accepted
when the callers have seen `o`; a call that then finds fewer than c returns true. -/
def C123_statement : Prop :=
  ∀ (c n : Nat) (b : Born) (acts : List (Act Nat)) (s : Queue.St Nat) (o : List (Ev Nat)) (i m : Nat) (r : Ret Nat), 0 < c →
    Waiting c acts → InTurn blockSize acts → run blockSize (init Nat) acts = some s → Made c b o → (∀ e ∈ s.log, threadOf e < n) →
    o ++ [.call i (write c m), .ret i r] <+: observed s.log → acceptedCount n o < c → r = .yes

theorem waiting_allowed {c : Nat} {acts : List (Act Nat)} (h : Waiting c acts) (m : Mode) : ∀ a ∈ acts, a.allowed m := by
  intro a ha
  cases a with
  | go i ch => trivial
  | start i x =>
    rcases h i x ha with rfl | ⟨m, rfl⟩ <;> trivial

theorem waiting_grows {c : Nat} (hc : 0 < c) {acts : List (Act Nat)} (h : Waiting c acts) : ∀ a ∈ acts, a.grows = false := by
  intro a ha
  cases a with
  | go i ch => rfl
  | start i x =>
    rcases h i x ha with rfl | ⟨m, rfl⟩
    · rfl
    · simp [Act.grows, write]; omega

theorem made_blocks {c : Nat} {b : Born} {l : List (Ev Nat)} (h : Made c b l) : blocks l = given c b := by
  obtain ⟨l0, l1, rfl, _, _, h3, h4⟩ := h
  simp only [blocks, List.countP_append] at h3 h4 ⊢
  rw [h3, h4]; rfl

theorem write_bounded {c m : Nat} (h : 0 < c) : write c m = .enq m false := by
  have : (c == 0) = false := by simp; omega
  rw [write, this]

/-- A peer's placeholder connection is given 4096 messages, and one more, which is refused. -/
def SendRoom.fullRun : List (Act Nat) := fill1 blockSize ++ .start 0 (.enq 7 false) :: goN 0 10

theorem SendRoom.fullRun_facts (c : Nat) (hc : 0 < c) : ∃ t, run blockSize (init Nat) fullRun = some t ∧ Waiting c fullRun ∧ InTurn blockSize fullRun ∧
    Made c .placeholder (observed (fill1Log blockSize)) ∧ Made c .placeholder t.log ∧ (∀ e ∈ t.log, threadOf e < 1) ∧
    observed (fill1Log blockSize) ++ [.call 0 (write c 7), .ret 0 .no] <+: observed t.log ∧ acceptedCount 1 (observed (fill1Log blockSize)) = 4096 := by
  obtain ⟨s, h1, h2, h3⟩ := fill1_run (B := blockSize) (Nat.le_refl _)
  obtain ⟨t, g1, g2⟩ := one_full h2 7
  have hr := run_app (bs := .start 0 (.enq 7 false) :: goN 0 10) h1
  rw [g1] at hr
  have hl : t.log = fill1Log blockSize ++ [.call 0 (.enq 7 false), .refuse 0, .ret 0 .no] := by rw [g2, h3]
  refine ⟨t, hr, ?_, ?_, ?_, ?_, ?_, ?_, ?_⟩
  · intro i x hx
    rw [fullRun, List.mem_append] at hx
    rcases hx with hx | hx
    · rcases fill1_acts _ hx with ⟨e, he⟩ | he
      · cases he; exact .inr ⟨e, (write_bounded hc).symm⟩
      · cases he
    · simp only [goN, List.mem_cons, List.mem_replicate] at hx
      rcases hx with hx | hx
      · cases hx; exact .inr ⟨7, (write_bounded hc).symm⟩
      · cases hx.2
  · intro p hp
    rw [fullRun, trace_app h1, List.mem_append] at hp
    rcases hp with hp | hp
    · exact fill1_turn (Nat.le_refl _) p hp
    · exact op_turn h2 _ p hp
  · refine ⟨[], _, (List.nil_append _).symm, fun _ _ h => by simp [ofThread] at h, fun _ _ h => by (simp at h), rfl, ?_⟩
    rw [blocks_observed, fill1_blocks]
  · refine ⟨[], _, (List.nil_append _).symm, fun _ _ h => by simp [ofThread] at h, fun _ _ h => by (simp at h), rfl, ?_⟩
    have e3 := fill1_blocks (k := blockSize)
    rw [hl]
    simp only [blocks, List.countP_append] at e3 ⊢
    rw [e3]; decide
  · intro e he
    rw [hl, List.mem_append] at he
    rcases he with he | he
    · rw [fill1_threads e he]; omega
    · simp only [List.mem_cons, List.not_mem_nil, or_false] at he
      rcases he with rfl | rfl | rfl <;> exact Nat.zero_lt_one
  · have e2 : observed t.log = observed (fill1Log blockSize) ++ [.call 0 (.enq 7 false), .ret 0 .no] := by
      rw [hl]; exact List.filter_append ..
    rw [e2, write_bounded hc]
    exact List.prefix_rfl
  · have e1 : acceptedCount 1 (observed (fill1Log blockSize)) = blockSize := by
      rw [acceptedCount_observed, acceptedCount]
      simp [List.range_succ, fill1_accepted]
    exact e1

/-- 5000 messages may wait; 4096 do, and the next is refused. -/
theorem C123_violated : ¬ C123_statement := by
  intro h
  obtain ⟨t, h1, h2, h3, h4, _, h5, h6, h7⟩ := SendRoom.fullRun_facts 5000 (by omega)
  cases h 5000 1 .placeholder _ t _ 0 7 .no (by omega) h2 h3 h1 h4 h5 h6 (by omega)

/-- However large max_send_buff_size is, and however the callers' steps interleave: at most 4096 messages wait for a peer that was never connected. -/
theorem C123_limit {c : Nat} {acts : List (Act Nat)} {s : Queue.St Nat} (hc : 0 < c) (hw : Waiting c acts) (h : run blockSize (init Nat) acts = some s) (hm : Made c .placeholder s.log) :
    ∃ q, replay empty s.log = some q ∧ q.q.length ≤ 4096 := by
  have hg := waiting_grows hc hw
  have hT : ∀ p ∈ trace blockSize (init Nat) acts, timelyAt p.1 p.2 := timely_bounded (fun _ => rfl) (fun a hx i e hae => by
    have := hg a hx; subst hae; cases this)
  obtain ⟨k, _⟩ := inv_run (by decide) (inv_init blockSize (.single 0)) idle_init h (waiting_allowed hw _) hT (fun e => by cases e)
  obtain ⟨⟨L, _, _, h3⟩, _⟩ := counted_run counted_init (fun _ => rfl) hg h
  obtain ⟨q, hq, _⟩ := k.leg
  refine ⟨q, hq, ?_⟩
  have h4 := length_bound k hq
  have h5 := made_blocks hm
  simp only [blocks] at h5
  simp only [h5] at h3
  have h6 : s.fl.alloc * blockSize ≤ 1 * blockSize := Nat.mul_le_mul_right _ (by simp only [given] at h3; omega)
  simp only [blockSize] at h4 h6
  omega

/-- What is refused, when nothing has been sent yet: only what does not fit in 4096 messages, or in what an opened connection has, which is more than max_send_buff_size. -/
theorem C123_refused {c n : Nat} {b : Born} {acts : List (Act Nat)} {s : Queue.St Nat} {o : List (Ev Nat)} {i m : Nat} {r : Ret Nat} (hc : 0 < c)
    (hw : Waiting c acts) (ht : InTurn blockSize acts) (h : run blockSize (init Nat) acts = some s) (hm : Made c b o) (hn : ∀ e ∈ s.log, threadOf e < n)
    (ho : o ++ [.call i (write c m), .ret i r] <+: observed s.log) :
    r = .yes ∨ (r = .no ∧ (1 + given c b) * 4096 ≤ acceptedCount n o) := by
  rw [write_bounded hc] at ho
  have hg := waiting_grows hc hw
  have hB : 0 < blockSize := by decide
  rcases turn_enq hB (waiting_allowed hw .multi) hg ht h hn ho with h1 | ⟨h0, as, bs, s1, h1, h2, h3, _⟩
  · exact .inl h1
  · refine .inr ⟨h0, ?_⟩
    have := (untaken_run untaken_init (fun a hx i => by
      have hx' : a ∈ acts := by rw [h1]; simp [hx]
      refine ⟨?_, ?_, ?_⟩
      · rintro rfl; rcases hw i _ hx' with e | ⟨m, e⟩ <;> simp [write] at e
      · rintro rfl; rcases hw i _ hx' with e | ⟨m, e⟩ <;> simp [write] at e
      · rintro e rfl; rcases hw i _ hx' with e | ⟨m, e⟩ <;> simp [write] at e) h2).head s1.qhead
    rw [this, made_blocks hm] at h3
    simp only [blockSize] at h3
    omega

/-- The property for connections that were opened or accepted.  Missing: the connection object a peer has before. -/
theorem C123_opened_partial {c n : Nat} {b : Born} {acts : List (Act Nat)} {s : Queue.St Nat} {o : List (Ev Nat)} {i m : Nat} {r : Ret Nat} (hc : 0 < c) (hb : b ≠ .placeholder)
    (hw : Waiting c acts) (ht : InTurn blockSize acts) (h : run blockSize (init Nat) acts = some s) (hm : Made c b o) (hn : ∀ e ∈ s.log, threadOf e < n)
    (ho : o ++ [.call i (write c m), .ret i r] <+: observed s.log) (ha : acceptedCount n o < c) : r = .yes := by
  rcases C123_refused hc hw ht h hm hn ho with h1 | ⟨_, h1⟩
  · exact h1
  · exfalso
    have e : given c b = max (c / 4096) 1 := by cases b <;> first | rfl | exact absurd rfl hb
    rw [e] at h1
    have h2 := Nat.div_add_mod c 4096
    have h3 := Nat.mod_lt c (show 4096 > 0 by omega)
    omega

/-- The property for limits up to 4096, of every connection object.  Missing: larger limits. -/
theorem C123_small_partial {c n : Nat} {b : Born} {acts : List (Act Nat)} {s : Queue.St Nat} {o : List (Ev Nat)} {i m : Nat} {r : Ret Nat} (hc : 0 < c) (hb : c ≤ 4096)
    (hw : Waiting c acts) (ht : InTurn blockSize acts) (h : run blockSize (init Nat) acts = some s) (hm : Made c b o) (hn : ∀ e ∈ s.log, threadOf e < n)
    (ho : o ++ [.call i (write c m), .ret i r] <+: observed s.log) (ha : acceptedCount n o < c) : r = .yes := by
  rcases C123_refused hc hw ht h hm hn ho with h1 | ⟨_, h1⟩
  · exact h1
  · omega

/-- Without a limit nothing is refused. -/
theorem C123_unlimited {acts : List (Act Nat)} {s : Queue.St Nat} {o : List (Ev Nat)} {i m : Nat} {r : Ret Nat}
    (hw : Waiting 0 acts) (ht : InTurn blockSize acts) (h : run blockSize (init Nat) acts = some s)
    (ho : o ++ [.call i (write 0 m), .ret i r] <+: observed s.log) : r = .yes := by
  have hB : 0 < blockSize := by decide
  have ha := waiting_allowed hw .multi
  obtain ⟨a, mid, w, hl, h1, h2⟩ := split_observed ho
  obtain ⟨k, _⟩ := turn_run hB (inv_init blockSize .multi) idle_init turn_init h ha ht
  have hq : Quiet a := call_quiet hB h ha ht (l := a) (j := i) (c := write 0 m) ⟨mid ++ .ret i r :: w, by rw [hl]; simp⟩
  obtain ⟨q, hleg⟩ := legal_of_inv k
  have e1 : s.log = a ++ ((.call i (write 0 m) :: mid ++ [.ret i r]) ++ w) := by rw [hl]; simp
  rw [e1, replay_append, Option.bind_eq_some_iff] at hleg
  obtain ⟨qa, h3, h4⟩ := hleg
  rw [replay_append, Option.bind_eq_some_iff] at h4
  obtain ⟨qb, h5, _⟩ := h4
  rcases enq_alone (quiet_doing h3 hq) h2 h5 with ⟨_, h6⟩ | ⟨rfl, h6⟩
  · exact h6
  · exfalso
    have hd := quiet_doing h3 hq i
    simp [replay, after, hd, Q.set, write] at h5

/-- The run with 4097 calls meets the bound, and the call that is refused. -/
example : ∃ t q, run blockSize (init Nat) SendRoom.fullRun = some t ∧ replay empty t.log = some q ∧ q.q.length ≤ 4096 := by
  obtain ⟨t, h1, h2, _, _, h4, _⟩ := SendRoom.fullRun_facts 5000 (by omega)
  obtain ⟨q, hq⟩ := C123_limit (by omega) h2 h1 h4
  exact ⟨t, q, h1, hq⟩

example : ∃ o : List (Ev Nat), Ret.no = (Ret.yes : Ret Nat) ∨ (1 + given 5000 .placeholder) * 4096 ≤ acceptedCount 1 o := by
  obtain ⟨t, h1, h2, h3, h4, _, h5, h6, _⟩ := SendRoom.fullRun_facts 5000 (by omega)
  exact ⟨_, (C123_refused (by omega) h2 h3 h1 h4 h5 h6).imp_right And.right⟩

/-- Waiting, from a check. -/
theorem SendRoom.waiting_of_check {c : Nat} {acts : List (Act Nat)} (h : ∀ a ∈ acts, (match a with | .start _ .add => true | .start _ (.enq m u) => write c m == .enq m u | .start _ _ => false | .go _ _ => true) = true) :
    Waiting c acts := by
  intro i x hx
  have := h _ hx
  cases x with
  | add => exact .inl rfl
  | enq m u => exact .inr ⟨m, (beq_iff_eq.mp this).symm⟩
  | deq => cases this
  | deqM => cases this
  | rewind e => cases this

/-- A dialled connection with room for 5000 messages, a peer's placeholder with room for 3, and one without a limit. -/
def SendRoom.dialledRun : List (Act Nat) := inTurn blockSize (init Nat) [(0, .add), (0, .enq 1 false), (1, .enq 2 false)]
def SendRoom.smallRun : List (Act Nat) := inTurn blockSize (init Nat) [(0, .enq 1 false), (1, .enq 2 false)]
def SendRoom.freeRun : List (Act Nat) := inTurn blockSize (init Nat) [(0, .enq 1 true), (1, .enq 2 true)]

example : ∃ s, run blockSize (init Nat) SendRoom.dialledRun = some s ∧ Ret.yes = (Ret.yes : Ret Nat) := by
  have e : (run blockSize (init Nat) SendRoom.dialledRun).map (·.log) = some
    [.call 0 .add, .ret 0 .none, .call 0 (.enq 1 false), .enq 0 1, .ret 0 .yes, .call 1 (.enq 2 false), .enq 1 2, .ret 1 .yes] := by decide +kernel
  obtain ⟨s, hs, hl⟩ := Option.map_eq_some_iff.mp e
  exact ⟨s, hs, C123_opened_partial (c := 5000) (n := 2) (b := .dialled) (i := 1) (m := 2) (o := [.call 0 .add, .ret 0 .none, .call 0 (.enq 1 false), .ret 0 .yes]) (by omega) (by decide)
    (SendRoom.waiting_of_check (by decide +kernel)) (turn_of_check 2 (by decide +kernel) (by decide +kernel)) hs
    ⟨[.call 0 .add, .ret 0 .none], _, rfl, quiet_of_check 2 (by decide), by simp, by decide, by decide⟩ (by rw [hl]; decide) (by rw [hl]; decide) (by decide)⟩

example : ∃ s, run blockSize (init Nat) SendRoom.smallRun = some s ∧ Ret.yes = (Ret.yes : Ret Nat) := by
  have e : (run blockSize (init Nat) SendRoom.smallRun).map (·.log) = some
    [.call 0 (.enq 1 false), .enq 0 1, .ret 0 .yes, .call 1 (.enq 2 false), .enq 1 2, .ret 1 .yes] := by decide +kernel
  obtain ⟨s, hs, hl⟩ := Option.map_eq_some_iff.mp e
  exact ⟨s, hs, C123_small_partial (c := 3) (n := 2) (b := .placeholder) (i := 1) (m := 2) (o := [.call 0 (.enq 1 false), .ret 0 .yes]) (by omega) (by decide)
    (SendRoom.waiting_of_check (by decide +kernel)) (turn_of_check 2 (by decide +kernel) (by decide +kernel)) hs
    ⟨[], _, rfl, quiet_of_check 2 (by decide), by simp, by decide, by decide⟩ (by rw [hl]; decide) (by rw [hl]; decide) (by decide)⟩

example : ∃ s, run blockSize (init Nat) SendRoom.freeRun = some s ∧ Ret.yes = (Ret.yes : Ret Nat) := by
  have e : (run blockSize (init Nat) SendRoom.freeRun).map (·.log) = some
    [.call 0 (.enq 1 true), .enq 0 1, .ret 0 .yes, .call 1 (.enq 2 true), .enq 1 2, .ret 1 .yes] := by decide +kernel
  obtain ⟨s, hs, hl⟩ := Option.map_eq_some_iff.mp e
  exact ⟨s, hs, C123_unlimited (i := 1) (m := 2) (o := [.call 0 (.enq 1 true), .ret 0 .yes])
    (SendRoom.waiting_of_check (by decide +kernel)) (turn_of_check 2 (by decide +kernel) (by decide +kernel)) hs (by rw [hl]; decide)⟩

end Salticidae
