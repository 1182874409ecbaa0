import Verif.Model.CError
namespace Salticidae
open CErr

/-! ## C76: error codes -/

/-- The enumerators, util.h:87-117. -/
def allCodes : List Code := [.normal, .generic, .accept, .listen, .connect, .peerAlreadyExists, .peerNotExist, .peerNotReady, .peerNotMatch, .clientNotExist, .netaddrInvalid, .optvalInvalid, .optnameAlreadyExists, .optUnknownAction, .configLineTooLong, .optInvalid, .tlsLoadCert, .tlsLoadKey, .tlsGeneric, .tlsX509, .tlsKey, .tlsKeyNotMatch, .tlsNoPeerCert, .fd, .libuvInit, .libuvStart, .randSource, .connNotReady, .notAvail, .unknown, .connOversizedMsg]

/-- `salticidae_strerror` never reads outside its table, whatever the code; every code of the library has
its own description, and any other number is described as "invalid". -/
theorem C76_descriptions :
    (∀ code : Int, strerror code ≠ .oob) ∧
    (∀ c : Code, ∃ s, strerror c.toInt = .str s ∧ s ≠ "invalid" ∧ (c ≠ .normal → s ≠ "")) ∧
    (∀ c d : Code, strerror c.toInt = strerror d.toInt → c = d) ∧
    (∀ code : Int, (∀ c : Code, code ≠ c.toInt) → strerror code = .str "invalid") := by
  have hlen : table.length = 31 := rfl
  refine ⟨fun code => ?_, fun c => ?_, fun c d h => ?_, fun code h => ?_⟩
  · unfold strerror readTable
    split
    · simp
    · rename_i h
      rw [if_neg (by omega)]
      have : code.toNat < table.length := by omega
      rw [List.getElem?_eq_getElem this]
      simp
  · cases c <;> exact ⟨_, rfl, by decide, by decide⟩
  · cases c <;> first | (cases d <;> first | rfl | exact absurd h (by decide))
  · unfold strerror
    rw [if_pos]
    apply Classical.byContradiction
    intro hn
    have h1 : 0 ≤ code ∧ code < 31 := by omega
    obtain ⟨n, rfl⟩ := Int.eq_ofNat_of_zero_le h1.1
    have h2 : n < 31 := by omega
    have : ∀ n < 31, ∃ c ∈ allCodes, Code.ctorIdx c = n := by decide
    obtain ⟨c, _, hc⟩ := this n h2
    exact h c (by simp [Code.toInt, hc])

/-- What a caller of the C API sees: the code 0 exactly when the call succeeded, otherwise the code of
the exception, and the operating system's error number that came with it. -/
def C76_statement : Prop :=
  ∀ (osStr : Int → String) (o : Outcome),
    (∀ e, o = .throwsSalticidae e → (∃ t, e = Err.ofFormat t) ∨ (∃ (c : Code) (n : Int), c ≠ .normal ∧ e = Err.ofCode osStr c.toInt n)) →
    ((report o).code = 0 ↔ o = .returns) ∧ (report o).oscode ≠ none

/-- Not so: an error made from a format string leaves `oscode` uninitialised. -/
theorem C76_violated : ¬ C76_statement := by
  intro h
  have := (h (fun _ => "") (.throwsSalticidae (Err.ofFormat "logger cannot open file x"))
    (fun e he => .inl ⟨_, by cases he; rfl⟩)).2
  exact this rfl

/-- All but the `oscode` of errors made from a format string.  The text of an error made from codes is the description of the code, followed by the operating system's text. -/
theorem C76_reported_partial (osStr : Int → String) (o : Outcome)
    (h : ∀ e, o = .throwsSalticidae e → (∃ t, e = Err.ofFormat t) ∨ (∃ (c : Code) (n : Int), c ≠ .normal ∧ e = Err.ofCode osStr c.toInt n)) :
    ((report o).code = 0 ↔ o = .returns) ∧
    (o = .returns → report o = ⟨0, some 0⟩) ∧
    (∀ (c : Code) (n : Int), o = .throwsSalticidae (Err.ofCode osStr c.toInt n) → report o = ⟨c.toInt, some n⟩) ∧
    (∀ c : Code, o = .throwsSalticidae (Err.ofCode osStr c.toInt) → report o = ⟨c.toInt, some 0⟩) ∧
    (o = .throwsStd → report o = ⟨Code.unknown.toInt, some 0⟩) ∧
    (∀ e, o = .throwsSalticidae e → e.msg ≠ .oob) ∧
    (∀ (c : Code) (n : Int) (d : String), strerror c.toInt = .str d →
      (Err.ofCode osStr c.toInt n).msg = .str (if n = 0 then d else d ++ ": " ++ osStr n)) := by
  refine ⟨?_, fun hc => by rw [hc]; rfl, fun c n hc => by rw [hc]; rfl, fun c hc => by rw [hc]; rfl, fun hc => by rw [hc]; rfl, fun e he => ?_, fun c n d hd => ?_⟩
  · cases o with
    | returns => exact ⟨fun _ => rfl, fun _ => rfl⟩
    | throwsStd => exact ⟨fun h => absurd h (by decide), fun h => by cases h⟩
    | throwsSalticidae e =>
      refine ⟨fun h0 => ?_, fun h => by cases h⟩
      rcases h e rfl with ⟨t, rfl⟩ | ⟨c, n, hc, rfl⟩
      · exact absurd h0 (by simp [report, Err.ofFormat]; decide)
      · exfalso
        apply hc
        have h1 : c.toInt = 0 := h0
        revert h1
        cases c <;> first | (intro _; rfl) | (intro h; exact absurd h (by decide))
  · rcases h e he with ⟨t, rfl⟩ | ⟨c, n, hc, rfl⟩
    · simp [Err.ofFormat]
    · unfold Err.ofCode
      simp only
      split
      · cases c <;> simp [Code.toInt, readTable, table, Code.ctorIdx]
      · cases c <;> simp [Code.toInt, readTable, table, Code.ctorIdx]
  · have hr : readTable c.toInt = .str d := by
      unfold strerror at hd
      rw [if_neg] at hd
      · exact hd
      · cases c <;> decide
    by_cases hn : n = 0 <;> simp [Err.ofCode, hr, hn]

/-- Non-vacuity: connect() refused, ECONNREFUSED = 111. -/
example : report (.throwsSalticidae (Err.ofCode (fun _ => "refused") Code.connect.toInt 111)) = ⟨4, some 111⟩ ∧
    (Err.ofCode (fun _ => "refused") Code.connect.toInt 111).msg = .str "unable to connect: refused" := by decide

end Salticidae
