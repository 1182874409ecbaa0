import Verif.Lemmas.SegBuffer
/-
Property theorems for SegBuffer (C20, C21).
-/
namespace Salticidae
open SegBuffer

/-- The operations of C20. -/
inductive SegOp where
  | push (d : List Byte) | rewind (d : List Byte) | pop (n : Nat) | clear

/-- Run operations on the C++ object, collecting what each `pop` returned. -/
def SegOp.run : SegBuffer → List SegOp → List (List Byte) × SegBuffer
  | b, [] => ([], b)
  | b, .push d :: ops => SegOp.run (b.push d) ops
  | b, .rewind d :: ops => SegOp.run (b.rewind d) ops
  | b, .clear :: ops => SegOp.run b.clear ops
  | b, .pop n :: ops => let (r, b') := b.pop n
                        let (rs, b'') := SegOp.run b' ops
                        (r :: rs, b'')

/-- The specification: a plain byte list; `pop n` takes the first `min n size` bytes. -/
def SegOp.spec : List Byte → List SegOp → List (List Byte) × List Byte
  | c, [] => ([], c)
  | c, .push d :: ops => SegOp.spec (c ++ d) ops
  | c, .rewind d :: ops => SegOp.spec (d ++ c) ops
  | _, .clear :: ops => SegOp.spec [] ops
  | c, .pop n :: ops => let (rs, c') := SegOp.spec (c.drop n) ops
                        (c.take n :: rs, c')

/-- C20.  After any sequence of operations on a new buffer, the popped byte strings are those of the
byte list, and size() is the number of bytes left (as a size_t); popping everything then returns
exactly what the byte list still holds. -/
theorem C20_segbuffer_fifo (ops : List SegOp) :
    let (rs, b) := SegOp.run SegBuffer.empty ops
    let (rs', c) := SegOp.spec [] ops
    rs = rs' ∧ b.size = c.length % 2 ^ 64 ∧ ∀ n, (b.pop n).1 = c.take n := by
  have key : ∀ (ops : List SegOp) (b : SegBuffer), b.Wf →
      (SegOp.run b ops).1 = (SegOp.spec b.content ops).1 ∧ (SegOp.run b ops).2.Wf ∧
      (SegOp.run b ops).2.content = (SegOp.spec b.content ops).2 := by
    intro ops
    induction ops with
    | nil => intro b hb; exact ⟨rfl, hb, rfl⟩
    | cons o ops ih =>
      intro b hb
      cases o with
      | push d =>
        have := push_spec hb d
        have h2 := ih _ this.1
        rw [this.2] at h2; exact h2
      | rewind d =>
        have := rewind_spec hb d
        have h2 := ih _ this.1
        rw [this.2] at h2; exact h2
      | clear => exact ih _ (clear_spec b).1
      | pop n =>
        obtain ⟨h1, h2, h3⟩ := pop_spec hb n
        have h4 := ih _ h1
        rw [h3] at h4
        refine ⟨?_, h4.2.1, h4.2.2⟩
        simp only [SegOp.run, SegOp.spec]
        rw [h2, h4.1]
  have h := key ops SegBuffer.empty wf_empty
  have hc : SegBuffer.empty.content = [] := rfl
  rw [hc] at h
  refine ⟨h.1, ?_, ?_⟩
  · have := h.2.1.2
    rw [h.2.2] at this
    exact this
  · intro n
    rw [(pop_spec h.2.1 n).2.1, h.2.2]

example : SegOp.run SegBuffer.empty [.push [1, 2, 3], .push [4, 5], .pop 4, .rewind [9], .push [6], .pop 9]
    = ([[1, 2, 3, 4], [9, 5, 6]], ⟨[], 0⟩) := by decide

/-- C20, `empty()`: after any sequence of operations, a buffer that says it is empty holds nothing, and when no empty byte string was
ever pushed or put back, one that holds nothing says so. -/
theorem C20_empty (ops : List SegOp) :
    let b := (SegOp.run SegBuffer.empty ops).2
    let c := (SegOp.spec [] ops).2
    (b.isEmpty = true → c = [] ∧ b.size = 0) ∧
    (.push [] ∉ ops → .rewind [] ∉ ops → c = [] → b.isEmpty = true) := by
  have key : ∀ (ops : List SegOp) (b : SegBuffer), b.Wf →
      (SegOp.run b ops).2.Wf ∧ (SegOp.run b ops).2.content = (SegOp.spec b.content ops).2 ∧
      (.push [] ∉ ops → .rewind [] ∉ ops → (∀ s ∈ b.segs, s.off < s.data.length) → ∀ s ∈ (SegOp.run b ops).2.segs, s.off < s.data.length) := by
    intro ops
    induction ops with
    | nil => intro b hb; exact ⟨hb, rfl, fun _ _ h => h⟩
    | cons o ops ih =>
      intro b hb
      cases o with
      | push d =>
        have := push_spec hb d
        obtain ⟨h1, h2, h3⟩ := ih _ this.1
        rw [this.2] at h2
        refine ⟨h1, h2, fun hp hr hs => h3 (fun h => hp (List.mem_cons_of_mem _ h)) (fun h => hr (List.mem_cons_of_mem _ h)) ?_⟩
        intro s hm
        rcases List.mem_append.1 hm with hm | hm
        · exact hs s hm
        · rw [List.mem_singleton.1 hm]
          cases d with
          | nil => exact absurd (by simp) hp
          | cons x d => simp
      | rewind d =>
        have := rewind_spec hb d
        obtain ⟨h1, h2, h3⟩ := ih _ this.1
        rw [this.2] at h2
        refine ⟨h1, h2, fun hp hr hs => h3 (fun h => hp (List.mem_cons_of_mem _ h)) (fun h => hr (List.mem_cons_of_mem _ h)) ?_⟩
        intro s hm
        rcases List.mem_cons.1 hm with hm | hm
        · rw [hm]
          cases d with
          | nil => exact absurd (by simp) hr
          | cons x d => simp
        · exact hs s hm
      | clear =>
        obtain ⟨h1, h2, h3⟩ := ih _ (clear_spec b).1
        exact ⟨h1, h2, fun hp hr _ => h3 (fun h => hp (List.mem_cons_of_mem _ h)) (fun h => hr (List.mem_cons_of_mem _ h))
          (by simp [SegBuffer.clear])⟩
      | pop n =>
        obtain ⟨g1, g2, g3⟩ := pop_spec hb n
        obtain ⟨h1, h2, h3⟩ := ih _ g1
        rw [g3] at h2
        refine ⟨h1, h2, fun hp hr hs => h3 (fun h => hp (List.mem_cons_of_mem _ h)) (fun h => hr (List.mem_cons_of_mem _ h)) ?_⟩
        exact popLoop_off n b.segs hs
  obtain ⟨h1, h2, h3⟩ := key ops SegBuffer.empty wf_empty
  have hc : SegBuffer.empty.content = [] := rfl
  rw [hc] at h2
  refine ⟨fun he => ?_, fun hp hr hcn => ?_⟩
  · have hs : (SegOp.run SegBuffer.empty ops).2.segs = [] := by simpa [SegBuffer.isEmpty] using he
    have hcn : (SegOp.run SegBuffer.empty ops).2.content = [] := by simp [SegBuffer.content, hs]
    rw [h2] at hcn
    refine ⟨hcn, ?_⟩
    have := (C20_segbuffer_fifo ops).2.1
    rw [this, hcn]; rfl
  · have hs := h3 hp hr (by simp [SegBuffer.empty])
    rw [← h2] at hcn
    unfold SegBuffer.isEmpty
    generalize (SegOp.run SegBuffer.empty ops).2 = b at hs hcn
    cases hb : b.segs with
    | nil => rfl
    | cons s segs =>
      have := hs s (by rw [hb]; simp)
      simp only [SegBuffer.content, hb, List.flatMap_cons, List.append_eq_nil_iff] at hcn
      have h0 := congrArg List.length hcn.1
      simp at h0
      omega

/-- An empty byte string pushed leaves a segment behind. -/
example : (SegOp.run SegBuffer.empty [.push []]).2.isEmpty = false ∧
    (SegOp.run SegBuffer.empty [.push [1, 2], .push [3], .pop 3]).2.isEmpty = true := by decide

/-- The full statement of C21. -/
def C21_statement : Prop :=
  ∀ ops : List SegOp, let b := (SegOp.run SegBuffer.empty ops).2
    b.isEmpty = false → ∃ r b', b.movePop = .ok (r, b') ∧
      (∃ seg rest, b.segs = seg :: rest ∧ r = seg.data.drop seg.off ∧ b'.segs = rest) ∧ b'.size + r.length = b.size

/-- C21 is violated: after a partial pop, move_pop hands out the bytes already popped once more, and
size() wraps to a huge number. -/
theorem C21_violated : ¬ C21_statement ∧
    (SegOp.run SegBuffer.empty [.push [1, 2, 3], .pop 2]).2.movePop
      = .ok ([1, 2, 3], ⟨[], 2 ^ 64 - 2⟩) := by
  have h0 : (SegOp.run SegBuffer.empty [.push [1, 2, 3], .pop 2]).2.movePop
      = .ok ([1, 2, 3], ⟨[], 2 ^ 64 - 2⟩) := by decide
  refine ⟨?_, h0⟩
  intro h
  obtain ⟨r, b', h1, -, h3⟩ := h [.push [1, 2, 3], .pop 2] (by decide)
  have h1' := h1.symm.trans h0
  simp only [Out.ok.injEq, Prod.mk.injEq] at h1'
  rw [h1'.1, h1'.2] at h3
  revert h3
  decide

/-- C21, proved part: on a reachable non-empty buffer whose first segment has not been partly popped,
move_pop returns exactly the unread bytes of the first segment, keeps all the others, and size() drops
by that many.  Missing: a first segment that a pop has cut. -/
theorem C21_move_pop_partial (ops : List SegOp) (seg : Seg) (rest : List Seg)
    (hb : (SegOp.run SegBuffer.empty ops).2.segs = seg :: rest) (h0 : seg.off = 0)
    (hsize : (SegOp.run SegBuffer.empty ops).2.content.length < 2 ^ 64) :
    let b := (SegOp.run SegBuffer.empty ops).2
    ∃ r b', b.movePop = .ok (r, b') ∧ b.content = r ++ b'.content ∧ b'.Wf ∧
      b'.size + r.length = b.size ∧ b'.len + 1 = b.len := by
  have hwf : ∀ (ops : List SegOp) (b : SegBuffer), b.Wf → (SegOp.run b ops).2.Wf := by
    intro ops
    induction ops with
    | nil => intro b hb; exact hb
    | cons o ops ih =>
      intro b hb
      cases o with
      | push d => exact ih _ (push_spec hb d).1
      | rewind d => exact ih _ (rewind_spec hb d).1
      | clear => exact ih _ (clear_spec b).1
      | pop n => exact ih _ (pop_spec hb n).1
  have hw := hwf ops _ wf_empty
  generalize (SegOp.run SegBuffer.empty ops).2 = b at hb hsize hw
  intro b'
  have hcont : b.content = seg.data ++ rest.flatMap (fun s => s.data.drop s.off) := by
    simp [content, hb, h0]
  have hlen : b.content.length = seg.data.length + (rest.flatMap (fun s => s.data.drop s.off)).length := by
    rw [hcont]; simp
  have hsz : (b.sz + (sizeMod - seg.data.length % sizeMod)) % sizeMod
      = (rest.flatMap (fun s => s.data.drop s.off)).length := by
    rw [hw.2, hlen]
    rw [hlen] at hsize
    generalize (rest.flatMap (fun s => s.data.drop s.off)).length = R at *
    generalize seg.data.length = S at *
    unfold sizeMod
    omega
  refine ⟨seg.data, ⟨rest, (b.sz + (sizeMod - seg.data.length % sizeMod)) % sizeMod⟩, ?_, hcont, ⟨?_, ?_⟩, ?_, ?_⟩
  · simp only [b', movePop, hb]
  · intro s hs; exact hw.1 s (by rw [hb]; simp [hs])
  · rw [hsz]
    simp only [content]
    rw [Nat.mod_eq_of_lt]
    unfold sizeMod; omega
  · have : b.size = b.content.length := by
      rw [SegBuffer.size, hw.2, Nat.mod_eq_of_lt (by unfold sizeMod; omega)]
    simp only [SegBuffer.size, hsz] at this ⊢
    change _ = b.sz
    rw [this, hlen]; omega
  · simp [SegBuffer.len, b', hb]

example : (SegOp.run SegBuffer.empty [.push [1, 2], .push [3], .pop 2]).2.segs = [⟨[3], 0⟩] := by decide

end Salticidae
