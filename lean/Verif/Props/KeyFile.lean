import Verif.Spec.KeyFile
/-!
C126: key and certificate files.
-/
namespace Salticidae
open KeyFile Spec.KeyFile

/-- C126: saving either throws or leaves the whole object in the file, a crash leaves what was there before or what was saved, and loading gives the object exactly when the file holds it (and the
password is right). -/
def C126_statement : Prop :=
  ∀ (K : Type) (c : Codec K) (_ : Lawful c) (d : Disk) (b p : Nat) (_ : 0 < b),
    (∀ k, saveRes d b p (c.text k) ≠ .ub ∧
      (saveRes d b p (c.text k) = .returned → (d.ops (saveOps d b p (c.text k))).file p = some (c.text k)) ∧
      ∀ n, (d.ops ((saveOps d b p (c.text k)).take n)).file p = d.file p ∨ (d.ops ((saveOps d b p (c.text k)).take n)).file p = some (c.text k)) ∧
    (∀ pw k, load c d p pw ≠ .ub ∧ (load c d p pw = .key k ↔ ∃ bs, d.file p = some bs ∧ Opens c bs pw k))

theorem KeyFile.early_late (b : Nat) (t : Bytes) : early b t ++ late b t = t := List.take_append_drop _ _

theorem KeyFile.ops_cons (d : Disk) (o : Op) (os : List Op) : d.ops (o :: os) = (d.op o).ops os := rfl

/-- The three steps of saving. -/
theorem KeyFile.ops_all (d : Disk) (p : Nat) (x y : Bytes) :
    (d.ops [.create p, .append p x, .append p y]).file p = some (x.take (d.op (.create p)).free ++ y.take ((d.op (.create p)).free - x.length)) := by
  simp [Disk.ops, Disk.op, upd]

/-- When there is room, what was saved is in the file, and is what is loaded, with any password or none; no other file changes. -/
theorem C126_save_partial {K : Type} {c : Codec K} (hc : Lawful c) {d : Disk} {b p : Nat} {k : K} (hw : d.writable p = true) (hr : (c.text k).length ≤ d.free) :
    saveRes d b p (c.text k) = .returned ∧ (d.ops (saveOps d b p (c.text k))).file p = some (c.text k) ∧
      (∀ pw, load c (d.ops (saveOps d b p (c.text k))) p pw = .key k) ∧ ∀ q, q ≠ p → (d.ops (saveOps d b p (c.text k))).file q = d.file q := by
  have h1 : (c.text k).length ≤ (d.op (.create p)).free := by simp only [Disk.op]; omega
  have h2 : (early b (c.text k)).length + (late b (c.text k)).length = (c.text k).length := by
    have := congrArg List.length (early_late b (c.text k)); simpa using this
  have h3 : (d.ops (saveOps d b p (c.text k))).file p = some (c.text k) := by
    rw [saveOps, if_pos hw, ops_all, List.take_of_length_le (by omega), List.take_of_length_le (by omega), early_late]
  refine ⟨?_, h3, fun pw => ?_, fun q hq => ?_⟩
  · rw [saveRes, if_neg (by simp [hw]), if_neg (by omega)]
  · simp only [load, h3, hc k]
  · simp [saveOps, hw, Disk.ops, Disk.op, upd, hq]

/-- Saving throws only when the disk is full. -/
theorem C126_thrown {d : Disk} {b p : Nat} {t : Bytes} (h : saveRes d b p t = .thrown) : d.free < t.length := by
  have h2 : (early b t).length + (late b t).length = t.length := by
    have := congrArg List.length (early_late b t); simpa using this
  simp only [saveRes] at h
  split at h
  · cases h
  · split at h
    · next hf => simp only [Disk.op] at hf; omega
    · cases h

/-- A crash at any point (and a full disk): the file is as before, or a beginning of what is saved; other files are not touched.  Missing: what was there before may be lost. -/
theorem C126_crash_partial (d : Disk) (b p : Nat) (t : Bytes) (n : Nat) :
    ((d.ops ((saveOps d b p t).take n)).file p = d.file p ∨ ∃ m, (d.ops ((saveOps d b p t).take n)).file p = some (t.take m)) ∧
      ∀ q, q ≠ p → (d.ops ((saveOps d b p t).take n)).file q = d.file q := by
  by_cases hw : d.writable p = true
  · simp only [saveOps, if_pos hw]
    match n with
    | 0 => exact ⟨.inl rfl, fun _ _ => rfl⟩
    | 1 => exact ⟨.inr ⟨0, by simp [Disk.ops, Disk.op, upd]⟩, fun q hq => by simp [Disk.ops, Disk.op, upd, hq]⟩
    | 2 =>
      refine ⟨.inr ⟨min (d.op (.create p)).free (t.length / b * b), ?_⟩, fun q hq => by simp [Disk.ops, Disk.op, upd, hq]⟩
      simp [Disk.ops, Disk.op, upd, early, List.take_take]
    | n + 3 =>
      have e : List.take (n + 3) [Op.create p, .append p (early b t), .append p (late b t)] = [Op.create p, .append p (early b t), .append p (late b t)] := by simp
      rw [e]
      refine ⟨.inr ⟨(d.op (.create p)).free, ?_⟩, fun q hq => by simp [Disk.ops, Disk.op, upd, hq]⟩
      rw [ops_all, ← List.take_append, early_late]
  · simp only [saveOps, if_neg hw, List.take_nil]
    exact ⟨.inl rfl, fun _ _ => rfl⟩

theorem KeyFile.cstr_self : ∀ {w : Bytes}, (∀ x ∈ w, x ≠ 0) → cstr w = w
  | [], _ => rfl
  | x :: w, h => by
    have h1 := h x (by simp)
    have ih := KeyFile.cstr_self (w := w) (fun y hy => h y (by simp [hy]))
    simp only [cstr] at ih ⊢
    rw [List.takeWhile_cons, if_pos (by simpa using h1), ih]

theorem KeyFile.cstr_plain {w : Bytes} (h : Plain w) : cstr w = w := KeyFile.cstr_self (fun _ hx e => h.2 (e ▸ hx))

/-- Loading with a password that OpenSSL's interface can take, or none: exactly what the file holds; otherwise an exception.  Missing: passwords with zero bytes, or of 1024 bytes and more. -/
theorem C126_load_partial {K : Type} {c : Codec K} {d : Disk} {p : Nat} {pw : Option Bytes} (hp : ∀ w, pw = some w → Plain w) (k : K) :
    load c d p pw ≠ .ub ∧ (load c d p pw = .key k ↔ ∃ bs, d.file p = some bs ∧ Opens c bs pw k) := by
  simp only [load, Opens]
  cases hf : d.file p with
  | none => simp
  | some bs =>
    simp only [Option.some.injEq, exists_eq_left']
    cases hc : c.parse bs with
    | bad => simp
    | plain k' => simp
    | locked q ko =>
      cases pw with
      | none => simp
      | some w =>
        have hpw := hp w rfl
        have hn : ¬ pemBuf < w.length + 1 := by have := hpw.1; simp only [pemBuf]; omega
        simp only [cstr_plain hpw, if_neg hn]
        by_cases e : w = q
        · subst e
          cases ko with
          | none => simp
          | some k' => simp
        · simp only [if_neg e]
          refine ⟨by simp, by simp, ?_⟩
          rintro (h | ⟨q', h1, h2⟩)
          · cases h
          · cases h1; cases h2; exact absurd rfl e

/-- For the examples: keys are numbers, a file holds the key after a mark; with another mark, the key is encrypted with the password that follows. -/
def KeyFile.codec : Codec Nat where
  text k := [7, k]
  parse
    | [7, k] => .plain k
    | 8 :: k :: q => .locked q (some k)
    | _ => .bad

theorem KeyFile.codec_lawful : Lawful codec := fun _ => rfl

/-- A disk with one file, 3, that holds the key 5; room for a bytes; the file 4 cannot be written. -/
def KeyFile.disk (a : Nat) : Disk where
  file := fun p => if p = 3 then some [7, 5] else none
  free := a
  writable := fun p => p ≠ 4

/-- Files that cannot be opened: a null pointer is used. -/
theorem C126_violated : ¬ C126_statement := by
  intro h
  exact ((h Nat codec codec_lawful (disk 100) 4096 4 (by omega)).1 5).1 rfl

/-- A full disk: save returns, and the file is a part of the key, that cannot be loaded (whatever the key, when there is room for fewer bytes than it has and it fits the FILE's buffer). -/
theorem C126_violated_full {K : Type} (c : Codec K) (d : Disk) (b p : Nat) (k : K) (hw : d.writable p = true) (hb : (c.text k).length < b) (hn : d.file p = none) (hr : d.free < (c.text k).length) :
    saveRes d b p (c.text k) = .returned ∧ (d.ops (saveOps d b p (c.text k))).file p = some ((c.text k).take d.free) := by
  have e : (c.text k).length / b = 0 := Nat.div_eq_of_lt hb
  have h1 : early b (c.text k) = [] := by simp [early, e]
  have h2 : late b (c.text k) = c.text k := by simp [late, e]
  refine ⟨?_, ?_⟩
  · rw [saveRes, if_neg (by simp [hw]), if_neg (by simp [h1])]
  · rw [saveOps, if_pos hw, ops_all, h1, h2]
    simp [Disk.op, hn]

example : saveRes (disk 1) 4096 2 (codec.text 6) = .returned ∧ ((disk 1).ops (saveOps (disk 1) 4096 2 (codec.text 6))).file 2 = some [7] ∧
    load codec ((disk 1).ops (saveOps (disk 1) 4096 2 (codec.text 6))) 2 none = .thrown := by decide +kernel

/-- A crash: the key that was in the file is lost, and the new one is not there (whatever the keys). -/
theorem C126_violated_crash (d : Disk) (b p : Nat) (t : Bytes) (hw : d.writable p = true) : (d.ops ((saveOps d b p t).take 1)).file p = some [] := by
  simp [saveOps, hw, Disk.ops, Disk.op, upd]

example : (disk 100).file 3 = some (codec.text 5) ∧ load codec ((disk 100).ops ((saveOps (disk 100) 4096 3 (codec.text 6)).take 1)) 3 none = .thrown := by decide +kernel

/-- Passwords: those with a zero byte are cut there, so that the right one is refused and a wrong one accepted; those of 1024 bytes and more are undefined behaviour. -/
theorem C126_violated_password : ∃ d : Disk,
    (∃ bs, d.file 0 = some bs ∧ Opens codec bs (some [65, 0, 66]) 5 ∧ load codec d 0 (some [65, 0, 66]) = .thrown) ∧
    (∃ bs, d.file 1 = some bs ∧ ¬ Opens codec bs (some [65, 0, 66]) 5 ∧ load codec d 1 (some [65, 0, 66]) = .key 5) ∧
    (∃ bs, d.file 2 = some bs ∧ Opens codec bs (some (List.replicate 1024 65)) 5 ∧ load codec d 2 (some (List.replicate 1024 65)) = .ub) := by
  refine ⟨⟨fun p => if p = 0 then some [8, 5, 65, 0, 66] else if p = 1 then some [8, 5, 65] else some (8 :: 5 :: List.replicate 1024 65), 0, fun _ => false⟩, ⟨_, rfl, .inr ⟨_, rfl, rfl⟩, by decide +kernel⟩, ⟨_, rfl, ?_, by decide +kernel⟩,
    ⟨_, rfl, .inr ⟨_, rfl, rfl⟩, ?_⟩⟩
  · rintro (h | ⟨q, h1, h2⟩)
    · cases h
    · cases h1; cases h2
  · have h : cstr (List.replicate 1024 65) = List.replicate 1024 65 := KeyFile.cstr_self (fun x hx => by rw [List.eq_of_mem_replicate hx]; decide)
    simp only [load]
    show (if pemBuf < (cstr (List.replicate 1024 65)).length + 1 then Loaded.ub else _) = _
    rw [if_pos (by rw [h, List.length_replicate]; decide)]

/-- A key that is encrypted, opened with its password, refused with another; and the hypotheses of C126_save_partial. -/
example : Plain [65, 66] ∧ load codec ⟨fun _ => some [8, 5, 65, 66], 0, fun _ => true⟩ 0 (some [65, 66]) = .key 5 ∧ load codec ⟨fun _ => some [8, 5, 65, 66], 0, fun _ => true⟩ 0 (some [65]) = .thrown ∧
    (disk 2).writable 3 = true ∧ (codec.text 6).length ≤ (disk 2).free := by
  refine ⟨⟨by decide, by decide⟩, ?_⟩
  decide +kernel

end Salticidae
