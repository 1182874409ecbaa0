import Verif.Lemmas.CApiStep
/-
C99: the objects of the C interface behave as values, and no memory is lost.
-/
namespace Salticidae
open CApi

/-- An allocator that hands out the addresses one after the other. -/
def CApi.bump : Alloc where
  pick l := l.foldr max 0 + 1
  fresh l hl := by
    have h : ∀ (l : List Nat) x, x ∈ l → x ≤ l.foldr max 0 := by
      intro l
      induction l with
      | nil => simp
      | cons a l ih =>
        intro x hx
        rcases List.mem_cons.1 hx with rfl | hx
        · exact Nat.le_max_left ..
        · exact Nat.le_trans (ih x hx) (Nat.le_max_right ..)
    exact absurd (h l _ hl) (by omega)
  inplace _ bs := decide (bs.length < 8)

/-- A concrete machine: little endian, constant hash functions. -/
def CApi.demo : Cfg where
  e := .little
  H _ := List.replicate 32 7
  H1 _ := List.replicate 20 9
  resolve _ := none
  lax := false
  A := CApi.bump

/-- C99. Whatever a C program does with the objects of the C interface (streams, byte arrays, hash values, messages, addresses, lists of them,
peer ids): as long as it uses only pointers it was given and has not freed, with the right type and within bounds, every call returns
what it has to if the pointers stood for values; no call ends the program or touches memory that is not its own;
and when the program has freed everything it was given, nothing is left allocated. -/
def C99_statement : Prop :=
  ∀ (g : Cfg), (∀ x, (g.H x).length = 32) → ∀ cs : List Call,
    Spec.CApi.follow g (fun _ _ => false) [] (run g [] cs).1 ≠ .wrong ∧
    (Spec.CApi.follow g (fun _ _ => false) [] (run g [] cs).1 = .good [] → (run g [] cs).2 = [])

/-- C99 holds for all programs that stay away from the calls listed in `Spec.CApi.trouble`.  Missing: those calls, see `C99_violated`. -/
theorem C99_c_objects_partial (g : Cfg) (hH : ∀ x, (g.H x).length = 32) (cs : List Call) :
    Spec.CApi.follow g Spec.CApi.trouble [] (run g [] cs).1 ≠ .wrong ∧
    (Spec.CApi.follow g Spec.CApi.trouble [] (run g [] cs).1 = .good [] → (run g [] cs).2 = []) := by
  have h := run_ok hH cs [] [] (agree_init g)
  constructor
  · intro hw; rw [hw] at h; exact h
  · intro hg; rw [hg] at h; exact agree_empty h

/-- C99, for every single call: after any program that has gone well, one more permitted call goes well. -/
theorem C99_next_call_partial (g : Cfg) (hH : ∀ x, (g.H x).length = 32) (cs : List Call) (env env' : Spec.CApi.Env) (r : Ret) (c : Call)
    (hf : Spec.CApi.follow g Spec.CApi.trouble [] (run g [] cs).1 = .good env) (ht : Spec.CApi.trouble env c = false)
    (hs : Spec.CApi.step g env c = some (env', .ret r)) : ∃ h', step g (run g [] cs).2 c = some (h', r) := by
  have h := run_ok hH cs [] [] (agree_init g)
  rw [hf] at h
  obtain ⟨h', r', e1, _, e3⟩ := step_ok hH h c ht env' _ hs
  obtain ⟨rfl, _⟩ := e3
  exact ⟨h', e1⟩

/-- A program that goes well and frees everything: an array is made from bytes, copied into a stream, a message is made from it, its
payload consumed and read. -/
def CApi.tour : List Call :=
  [.baFromBytes [1, 2, 3, 4, 5, 6, 7, 8, 9], .dsFromArr 2, .dsPut 4 2 (0x0b0a : BitVec (8 * 2)), .dsHash 4, .baSet 2 0 42, .mNew 5 2, .mSetMagic 7 7,
   .mWire 7, .mConsume 7, .dsGet 8 1, .dsGetData 8 2, .dsSize 8, .dsSize 4, .free .msg 7, .free .stream 8, .free .bytes 2, .hPut 6 4, .hGet 6 4,
   .free .hash 6, .dsCopy 4, .free .stream 4, .dsData 9 3, .dsClear 9, .free .stream 9, .aFromIpPort 1 2, .pFromAddr 1, .paFrom [2, 2], .paRead 3,
   .free .addr 1, .free .peer 2, .free .peers 3]

example : (∀ x, (CApi.demo.H x).length = 32) := fun _ => by simp [CApi.demo]


example : Spec.CApi.follow CApi.demo Spec.CApi.trouble [] (run CApi.demo [] CApi.tour).1 = .good [] ∧
    (run CApi.demo [] CApi.tour).1.length = CApi.tour.length ∧ (run CApi.demo [] CApi.tour).2 = [] := by decide +kernel

/-- The verdict on a program. -/
def CApi.verdict (cs : List Call) : Spec.CApi.Verdict := Spec.CApi.follow CApi.demo (fun _ _ => false) [] (run CApi.demo [] cs).1

/-- The calls named in `Spec.CApi.trouble` are wrong, each of them: reading an integer from a stream that is too short (`*succ` stays true);
a block from a stream that is too short (null, but the stream claims to hold 2^64 - 1 bytes afterwards);
an array from hexadecimal text with other characters in it (no error); an array moved from a stream that has been read from (the bytes
already read come back); the null hash value equals the zero hash value; a payload consumed twice (ends the program). -/
theorem C99_violated_calls :
    CApi.verdict [.dsFromBytes [1, 2, 3], .dsGet 2 4] = .wrong ∧
    CApi.verdict [.dsFromBytes [1, 2, 3], .dsGetData 2 4, .dsSize 2] = .wrong ∧
    CApi.verdict [.baFromHex "1z".toList] = .wrong ∧
    CApi.verdict [.dsFromBytes [1, 2, 3], .dsGet 2 1, .baMovedFromDs 2, .baSize 4] = .wrong ∧
    CApi.verdict [.hNew, .hFromBytes (List.replicate 32 0), .hEq 1 2] = .wrong ∧
    CApi.verdict [.baFromBytes [1, 2, 3], .mNew 5 2, .mConsume 3, .mConsume 3] = .wrong := by decide +kernel

/-- C99 is false as it stands. -/
theorem C99_violated : ¬ C99_statement := fun h =>
  (h CApi.demo (fun _ => by simp [CApi.demo]) [.dsFromBytes [1, 2, 3], .dsGet 2 4]).1 C99_violated_calls.1

end Salticidae
