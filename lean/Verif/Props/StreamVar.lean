import Verif.Lemmas.StreamVar
/-
C103: stream variables behave as independent queues of bytes, and objects survive the conversion to
bytes or text and back.
-/
namespace Salticidae
open StreamVar DataStream

/-- No variable exists yet. -/
def StreamVar.start : St := fun _ => none

/-- No variable exists yet. -/
def Spec.StreamVar.start : Spec.StreamVar.Env := fun _ => none

/-- The full statement of C103: in every program over stream variables that uses only variables that
exist and have not been moved from, every statement shows what it would show if each variable were
a queue of bytes of its own: a copy or an assignment copies the queue and shares nothing with it, a
move hands it over, a read takes bytes from the front or fails and takes nothing, a write appends,
the conversions show all unread bytes.  The program does not reach undefined behaviour (it may stop
early only because a vector would need 2^63 bytes). -/
def C103_statement : Prop :=
  ∀ (g : Cfg) (ops : List Op) (os : List Out),
    Spec.StreamVar.follow g (fun _ _ => true) Spec.StreamVar.start ops = some os →
    run g StreamVar.start ops = .done os ∨ ∃ pre, run g StreamVar.start ops = .never pre ∧ pre <+: os

/-- C103 holds for the programs all of whose statements are `Spec.StreamVar.careful`.  Missing: the
statements that are not, see `C103_violated`. -/
theorem C103_values_partial (g : Cfg) (ops : List Op) (os : List Out)
    (h : Spec.StreamVar.follow g Spec.StreamVar.careful Spec.StreamVar.start ops = some os) :
    run g StreamVar.start ops = .done os ∨ ∃ pre, run g StreamVar.start ops = .never pre ∧ pre <+: os :=
  run_good g ops Rel.init h

/-- A little-endian machine with a hash function that counts. -/
def StreamVar.demo : Cfg := ⟨.little, fun bs => [BitVec.ofNat 8 bs.length], false⟩

/-- A program that meets the hypothesis of `C103_values_partial`: write, copy, read from the
original, move, read from all, append one to the other, fail to read, overwrite, self-assignment. -/
def StreamVar.tour : List Op :=
  [.new 0, .putInt 0 2 0x0102#16, .put 0 [7, 8, 9], .copy 1 0, .getInt 0 2, .size 0, .size 1, .takeBytes 1, .move 2 0,
   .toBytes 2, .putFrom 2 1 3 true, .toBytes 2, .toBytes 1, .swap 1 2, .getHex 1, .assign 0 1, .clear 1, .getBlock 0 2,
   .getBlock 0 100, .loadHex 0 ['f', 'F'], .hash 0, .getInt 0 4, .assign 2 2, .moveAssign 2 0, .toBytes 2, .moveAssign 2 2, .destroy 0, .toBytes 1]

example : Spec.StreamVar.follow StreamVar.demo Spec.StreamVar.careful Spec.StreamVar.start StreamVar.tour =
    some [.none, .none, .none, .none, .num 0x0102, .num 3, .num 5, .bytes [2, 1, 7, 8, 9], .none,
      .bytes [7, 8, 9], .none, .bytes [7, 8, 9, 2, 1, 7], .bytes [2, 1, 7, 8, 9], .none, .text "070809020107".toList, .none, .none, .bytes [7, 8],
      .failed, .none, .bytes [1], .failed, .none, .none, .bytes [0xff], .none, .none, .bytes []] := by decide

/-- C103 is violated: converting a partly read stream as an rvalue shows bytes that have been read
already; a failed block read makes the next `size()` huge and the next conversion undefined; a
stream appended to itself reads freed memory; text that is not hexadecimal is loaded. -/
theorem C103_violated_programs :
    run demo start [.bytes 0 [1, 2, 3], .getInt 0 1, .takeBytes 0] = .done [.none, .num 1, .bytes [1, 2, 3]] ∧
    run demo start [.bytes 0 [1, 2, 3], .getBlock 0 4, .size 0] = .done [.none, .failed, .num (2 ^ 64 - 1)] ∧
    run demo start [.bytes 0 [1, 2, 3], .getBlock 0 4, .toBytes 0] = .ub [.none, .failed] ∧
    run demo start [.bytes 0 [1, 2, 3], .putFrom 0 0 1 true] = .ub [.none] ∧
    run demo start [.bytes 0 [1, 2, 3], .loadHex 0 ['1', 'g'], .toBytes 0] = .done [.none, .none, .bytes [1]] := by
  decide

/-- C103 is false as it stands. -/
theorem C103_violated : ¬ C103_statement := by
  intro h
  rcases h demo [.bytes 0 [1, 2, 3], .getInt 0 1, .takeBytes 0] [.none, .num 1, .bytes [2, 3]] (by decide) with h | ⟨pre, h, _⟩
  · revert h; decide
  · rw [C103_violated_programs.1] at h; cases h

/-- A stream that has been moved from is not in a valid state when bytes had been read from it:
`size()` is huge and a conversion is undefined; `clear()` or an assignment makes it usable again (this
is allowed by `Spec.StreamVar.careful`). -/
theorem C103_violated_moved :
    run demo start [.bytes 0 [1, 2, 3], .getInt 0 1, .move 1 0, .size 0] = .done [.none, .num 1, .none, .num (2 ^ 64 - 1)] ∧
    run demo start [.bytes 0 [1, 2, 3], .getInt 0 1, .move 1 0, .toBytes 0] = .ub [.none, .num 1, .none] ∧
    Spec.StreamVar.follow demo Spec.StreamVar.careful Spec.StreamVar.start [.bytes 0 [1, 2, 3], .getInt 0 1, .move 1 0, .clear 0, .put 0 [5], .toBytes 0, .toBytes 1] =
      some [.none, .num 1, .none, .none, .none, .bytes [5], .bytes [2, 3]] := by
  decide

/-- C103, objects: if `serialize` of a class appends the bytes `enc` and `unserialize` obtains the
object `a` from any stream that starts with these bytes, then the object is recovered from its bytes
(even with bytes after them) and from its hexadecimal text in either letter case; its text and
its hash are those of `enc`. -/
theorem C103_serializable {α : Type} (g : Cfg) (ser : DataStream → DataStream) (unser : DataStream → Res DataStream α)
    (enc : List Byte) (a : α) (hlen : enc.length < 2 ^ 63)
    (hser : ∀ s, ser s = { s with buffer := s.buffer ++ enc })
    (hun : ∀ (s : DataStream) (rest : List Byte), s.Wf → s.unread = enc ++ rest → ∃ t, unser s = .ok t a ∧ t.unread = rest) :
    (∃ s, toBytes ser = .ok s enc) ∧
    (∀ rest, (enc ++ rest).length < 2 ^ 63 → ∃ t, fromBytes unser (enc ++ rest) = .ok t a ∧ t.unread = rest) ∧
    (∃ s txt, toHex ser = .ok s txt ∧ Spec.hexDecode txt = some enc ∧
      ∀ txt', Spec.hexDecode txt' = some enc → ∃ t, fromHex g.lax unser txt' = .ok t a) ∧
    (∃ s, hashOf g ser = .ok s (g.H enc)) := by
  have he : ser .empty = ⟨enc, 0⟩ := by rw [hser]; rfl
  refine ⟨⟨⟨enc, 0⟩, by rw [StreamVar.toBytes, he]; rfl⟩, ?_, ?_, ?_⟩
  · intro rest hr
    exact hun ⟨enc ++ rest, 0⟩ rest ⟨Nat.zero_le _, hr⟩ rfl
  · refine ⟨⟨enc, 0⟩, enc.flatMap hexOfByte, ?_, hexDecode_hexOf enc, ?_⟩
    · rw [StreamVar.toHex, he]; simp only [getHex, if_pos (Nat.zero_le _)]; rfl
    · intro txt' ht
      rw [StreamVar.fromHex, loadHex_ok _ _ ht]
      obtain ⟨t, h, _⟩ := hun ⟨enc, 0⟩ [] ⟨Nat.zero_le _, hlen⟩ (by simp [unread])
      exact ⟨t, h⟩
  · refine ⟨⟨enc, 0⟩, ?_⟩
    have hw : (DataStream.mk enc 0).Wf := ⟨Nat.zero_le _, hlen⟩
    have hz : (DataStream.mk enc 0).size = enc.length := size_eq hw
    rw [hashOf, he, getHash, hz, if_pos (by simp)]
    simp

/-- C103, objects whose fields are integers and blocks: for all lists of field values. -/
theorem C103_fields (g : Cfg) (l : List Item) (hlen : (DataStream.empty.putItems g.e l).buffer.length < 2 ^ 63) :
    ∃ enc, (∃ s, toBytes (fun s => s.putItems g.e l) = .ok s enc) ∧
      (∃ t, fromBytes (fun s => s.getItems g.e (l.map Item.shape)) enc = .ok t l ∧ t.unread = []) ∧
      (∃ s txt, toHex (fun s => s.putItems g.e l) = .ok s txt ∧
        ∃ t, fromHex g.lax (fun s => s.getItems g.e (l.map Item.shape)) txt = .ok t l) := by
  have hl : (l.flatMap (Item.enc g.e)).length < 2 ^ 63 := by
    rw [putItems_eq] at hlen; simpa [DataStream.empty] using hlen
  obtain ⟨h1, h2, h3, _⟩ := C103_serializable g (fun s => s.putItems g.e l) (fun s => s.getItems g.e (l.map Item.shape))
    (l.flatMap (Item.enc g.e)) l hl (fun s => putItems_eq g.e s l)
    (fun s rest hw hu => by
      obtain ⟨t, ht, _, hr⟩ := getItems_ok g.e l hw hu
      exact ⟨t, ht, hr⟩)
  refine ⟨_, h1, ?_, ?_⟩
  · have := h2 [] (by simpa using hl)
    simpa using this
  · obtain ⟨s, txt, ha, hb, hc⟩ := h3
    exact ⟨s, txt, ha, hc txt hb⟩

example : toBytes (fun s => s.putItems .little [.int 2 0x0102#16, .block [9]]) = .ok ⟨[2, 1, 9], 0⟩ [2, 1, 9] := by decide
example : toHex (fun s => s.putItems .big [.int 2 0x0102#16, .block [9]]) = .ok ⟨[1, 2, 9], 0⟩ "010209".toList := by decide

/-- The free function `from_hex` inverts the printing of bytes. -/
theorem C103_bytes_of_hex (lax : Bool) (txt : List Char) (bs : List Byte) (h : Spec.hexDecode txt = some bs) :
    bytesOfHex lax txt = .ok ⟨bs, 0⟩ bs := by
  simp only [bytesOfHex, loadHex_ok _ _ h, toBytesRvalue]

example : bytesOfHex false ['0', 'f', 'A', '1'] = .ok ⟨[0x0f, 0xa1], 0⟩ [0x0f, 0xa1] := by decide

end Salticidae
