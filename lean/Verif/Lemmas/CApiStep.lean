import Verif.Lemmas.CApi
namespace Salticidae
namespace CApi
open Spec.CApi (Val Env Result)

variable {g : Cfg} {h : Heap} {env : Env}

theorem drop_set (l : List Byte) (n i : Nat) (b : Byte) : (l.drop n).set i b = (l.set (n + i) b).drop n := by
  rw [List.drop_set, if_neg (by omega)]
  congr 1
  omega

theorem find_put_ne {h hm : Heap} {p q : Nat} {c : Cell} (hp : put h p c = some hm) (hne : q ≠ p) : find hm q = find h q := by
  unfold put at hp
  split at hp
  · rename_i h0
    cases hp
    rw [find, find]
    clear h0
    induction h with
    | nil => rfl
    | cons y h ih =>
      simp only [List.map_cons]
      grind
  · cases hp

/-- Every call that the program may make does what it has to do. -/
theorem step_ok (hH : ∀ x, (g.H x).length = 32) (ha : Agree g h env) (c : Call) (ht : Spec.CApi.trouble env c = false) (env' : Env) (res : Result)
    (hs : Spec.CApi.step g env c = some (env', res)) : Done g (step g h c) env' res := by
  cases c with
  | dsNew => cases hs; exact done_make ha _ _ rfl ⟨none, 0, rfl, by simp, by simp, rfl, by simp⟩
  | dsFromBytes bs =>
    simp only [Spec.CApi.step, Spec.CApi.makeIf] at hs
    split at hs
    · rename_i hf; cases hs
      exact done_makeVec ha _ _ _ (fun _ => rfl) fun w => ⟨w, 0, rfl, by simp, hf, rfl, by simp⟩
    · cases hs
  | dsFromArr a =>
    simp only [Spec.CApi.step] at hs
    split at hs
    · rename_i b hg; cases hs
      obtain ⟨w, G, hb, h1, h2⟩ := agree_array ha hg
      simp only [step, h1, Option.map_some]
      exact done_makeVec ha _ _ _ (fun _ => rfl) fun w => ⟨w, 0, rfl, by simp, h2, rfl, by simp⟩
    · cases hs
  | dsMovedFromArr a =>
    simp only [Spec.CApi.step] at hs
    split at hs
    · rename_i b hg; cases hs
      obtain ⟨w, G, hb, h1, h2⟩ := agree_array ha hg
      obtain ⟨p, h1', h', e1, e2, e3, e4⟩ := hb.steal (.bytes none) (.stream w 0) (.gone .bytes) (.stream b.length b) rfl rfl rfl
        ⟨w, 0, rfl, by simp, h2, rfl, by simp⟩
      simp only [step, h1, Option.bind_some, e1, Option.map_some, e2]
      exact ⟨h', .ptr p, rfl, by simp, p, rfl, e3, e4⟩
    · cases hs
  | dsCopy s =>
    simp only [Spec.CApi.step] at hs
    split at hs
    · rename_i k u hg; cases hs
      obtain ⟨w, off, bs, G, hb, h1, hw, rfl, rfl⟩ := agree_stream ha hg
      simp only [step, h1, Option.map_some]
      exact done_makeVec ha _ _ _ (fun _ => rfl) fun w => ⟨w, off, rfl, hw.1, hw.2, rfl, rfl⟩
    · cases hs
  | dsClear s =>
    simp only [Spec.CApi.step] at hs
    split at hs
    · rename_i k u hg; cases hs
      obtain ⟨w, off, bs, G, hb, h1, hw, rfl, rfl⟩ := agree_stream ha hg
      simp only [step, h1, Option.bind_some]
      exact done_setStream hb (DataStream.clear ⟨bs, off⟩) ⟨by simp [DataStream.clear], by simp [DataStream.clear]⟩ .done (by simp)
    · cases hs
  | dsSize s =>
    simp only [Spec.CApi.step] at hs
    split at hs
    · rename_i k u hg; cases hs
      obtain ⟨w, off, bs, G, hb, h1, hw, rfl, rfl⟩ := agree_stream ha hg
      simp only [step, h1, Option.map_some, DataStream.size_eq hw]
      exact done_ret ha _ (by simp)
    · cases hs
  | dsPut s w v =>
    simp only [Spec.CApi.step] at hs
    split at hs
    · rename_i k u hg
      split at hs
      · rename_i hf; cases hs
        obtain ⟨w', off, bs, G, hb, h1, hw, rfl, rfl⟩ := agree_stream ha hg
        simp only [step, h1, Option.bind_some]
        have := done_setStream hb (DataStream.putInt g.e ⟨bs, off⟩ v) ⟨by have := hw.1; simp [DataStream.putInt] at *; omega, by have := hf; simp only [Spec.CApi.Fits] at this; simpa [DataStream.putInt] using this⟩ (.flag true) (by simp)
        have hu : (DataStream.putInt g.e ⟨bs, off⟩ v).unread = (⟨bs, off⟩ : DataStream).unread ++ memEnc g.e v := by
          simp [DataStream.putInt, DataStream.unread, List.drop_append_of_le_length hw.1]
        rw [hu] at this
        simpa [DataStream.putInt] using this
      · cases hs
    · cases hs
  | dsPutData s bs' =>
    simp only [Spec.CApi.step] at hs
    split at hs
    · rename_i k u hg
      split at hs
      · rename_i hf; cases hs
        obtain ⟨w', off, bs, G, hb, h1, hw, rfl, rfl⟩ := agree_stream ha hg
        simp only [step, h1, Option.bind_some]
        have := done_setStream hb (DataStream.putData ⟨bs, off⟩ bs') ⟨by have := hw.1; simp [DataStream.putData] at *; omega, by have := hf; simp only [Spec.CApi.Fits] at this; simpa [DataStream.putData] using this⟩ (.flag true) (by simp)
        have hu : (DataStream.putData ⟨bs, off⟩ bs').unread = (⟨bs, off⟩ : DataStream).unread ++ bs' := by
          simp [DataStream.putData, DataStream.unread, List.drop_append_of_le_length hw.1]
        rw [hu] at this
        simpa [DataStream.putData] using this
      · cases hs
    · cases hs
  | dsGet s w =>
    simp only [Spec.CApi.step] at hs
    split at hs
    · rename_i k u hg
      have ht' : w ≤ u.length := by simpa [Spec.CApi.trouble, hg] using ht
      rw [if_pos ht'] at hs
      split at hs
      · cases hs
      · cases hs
        obtain ⟨w', off, bs, G, hb, h1, hw, rfl, rfl⟩ := agree_stream ha hg
        have e1 := DataStream.getInt_ok hw (e := g.e) ht'
        simp only [step, h1, Option.bind_some, DataStream.cGetInt, e1]
        have := done_setOff hb _ (DataStream.wf_advance hw ht') rfl (.val (memDec g.e w ((⟨bs, off⟩ : DataStream).unread.take w)).toNat true) (by simp)
        rw [DataStream.unread_advance] at this
        exact this
    · cases hs
  | dsGetData s n =>
    simp only [Spec.CApi.step] at hs
    split at hs
    · rename_i k u hg
      have ht' : n ≤ u.length := by simpa [Spec.CApi.trouble, hg] using ht
      rw [if_pos ht'] at hs
      cases hs
      obtain ⟨w', off, bs, G, hb, h1, hw, rfl, rfl⟩ := agree_stream ha hg
      have e1 := DataStream.getBlock_ok hw ht'
      simp only [step, h1, Option.bind_some, e1]
      have := done_setOff hb _ (DataStream.wf_advance hw ht') rfl (.data ((⟨bs, off⟩ : DataStream).unread.take n)) (by simp)
      rw [DataStream.unread_advance] at this
      exact this
    · cases hs
  | dsData s n =>
    simp only [Spec.CApi.step] at hs
    split at hs
    · rename_i k u hg
      split at hs
      · rename_i hn; cases hs
        obtain ⟨w', off, bs, G, hb, h1, hw, rfl, rfl⟩ := agree_stream ha hg
        rw [DataStream.unread_length] at hn
        have := hw.1
        simp only at this hn
        simp only [step, h1, Option.bind_some]
        rw [if_pos (by omega)]
        exact done_ret ha _ (by simp)
      · cases hs
    · cases hs
  | dsSet s i b =>
    simp only [Spec.CApi.step] at hs
    split at hs
    · rename_i k u hg
      split at hs
      · rename_i hn; cases hs
        obtain ⟨w', off, bs, G, hb, h1, hw, rfl, rfl⟩ := agree_stream ha hg
        rw [DataStream.unread_length] at hn
        have := hw.1
        simp only at this hn
        simp only [step, h1, Option.bind_some]
        cases w' with
        | none =>
          have := hb.bare _ (List.mem_cons_self) rfl
          simp only at this
          subst this; simp at hn
        | some q =>
          simp only
          rw [if_pos (by omega)]
          obtain ⟨h', e1, e2⟩ := hb.poke (q := q) (bs.set (off + i) b) (.stream bs.length ((⟨bs, off⟩ : DataStream).unread.set i b)) rfl
            ⟨some q, off, rfl, by simpa using hw.1, by simpa using hw.2, by simp, by simp [DataStream.unread, drop_set]⟩
          rw [e1]
          exact ⟨h', .done, rfl, by simp, rfl, _, e2⟩
      · cases hs
    · cases hs
  | dsHash s =>
    simp only [Spec.CApi.step] at hs
    split at hs
    · rename_i k u hg; cases hs
      obtain ⟨w', off, bs, G, hb, h1, hw, rfl, rfl⟩ := agree_stream ha hg
      obtain ⟨b, e1, e2, e3, e4⟩ := getHash_spec g.H hH ⟨bs, off⟩ hw.1 (by have := hw.2; simp only [sizeMod] at *; omega)
      simp only [step, h1, Option.bind_some, e1, Option.map_some]
      refine done_make ha _ _ rfl ⟨b, rfl, e3, ?_, ?_⟩
      · simpa [Blob.isNull] using e2
      · have := e4 .little
        rw [Blob.toBytes, Blob.serialize_loaded _ _ (by simpa [Blob.isNull] using e2)] at this
        simpa [DataStream.empty, DataStream.unread] using this
    · cases hs
  | dsHex s =>
    simp only [Spec.CApi.step] at hs
    split at hs
    · rename_i k u hg; cases hs
      obtain ⟨w', off, bs, G, hb, h1, hw, rfl, rfl⟩ := agree_stream ha hg
      simp only [step, h1, Option.bind_some, DataStream.getHex]
      rw [if_pos hw.1]
      exact done_make ha _ _ rfl rfl
    · cases hs
  | baNew => cases hs; exact done_make ha _ _ rfl ⟨none, rfl, by simp, rfl⟩
  | baFromBytes bs =>
    simp only [Spec.CApi.step, Spec.CApi.makeIf] at hs
    split at hs
    · rename_i hf; cases hs
      exact done_makeVec ha _ _ _ (fun _ => rfl) fun w => ⟨w, rfl, hf, rfl⟩
    · cases hs
  | baFromHex t =>
    simp only [Spec.CApi.step, Spec.CApi.makeIf] at hs
    split at hs
    · rename_i bs hd
      split at hs
      · rename_i hf; cases hs
        simp only [step, (C07_load_hex_partial g.lax DataStream.empty t).1 bs hd, DataStream.toBytesRvalue]
        exact done_makeVec ha _ _ _ (fun _ => rfl) fun w => ⟨w, rfl, hf, rfl⟩
      · cases hs
    · rename_i hd; cases hs
      have : t.length % 2 = 1 := by
        simp only [Spec.CApi.trouble, hd, Option.isNone_none, Bool.and_true, decide_eq_false_iff_not] at ht
        omega
      simp only [step, (C07_load_hex_partial g.lax DataStream.empty t).2.1 this]
      exact done_ret ha _ (by simp)
  | baMovedFromDs s =>
    simp only [Spec.CApi.step] at hs
    split at hs
    · rename_i k u hg; cases hs
      obtain ⟨w', off, bs, G, hb, h1, hw, rfl, rfl⟩ := agree_stream ha hg
      have ht' : bs = (⟨bs, off⟩ : DataStream).unread := by
        have h0 : bs.length = (⟨bs, off⟩ : DataStream).unread.length := by simpa [Spec.CApi.trouble, hg] using ht
        rw [DataStream.unread_length] at h0
        simp only at h0
        by_cases hb0 : bs.length = 0
        · rw [List.length_eq_zero_iff.1 hb0]; simp [DataStream.unread]
        · have : off = 0 := by omega
          simp [DataStream.unread, this]
      simp only [step, h1, Option.bind_some, DataStream.toBytesRvalue]
      have hgone : AgreeG g h (Spec.CApi.set env s (.gone .stream)) ((⟨s, .stream w' off, bs⟩, .gone .stream) :: G) := by
        refine ⟨hb.heap, hb.nodup, at_map _ hb.envNodup hb.envPerm, ?_, ?_⟩
        · intro y hy
          rcases List.mem_cons.1 hy with rfl | hy
          · exact hb.bare (⟨s, .stream w' off, bs⟩, .stream bs.length (⟨bs, off⟩ : DataStream).unread) (List.mem_cons_self)
          · exact hb.bare y (by simp [hy])
        · intro y hy
          rcases List.mem_cons.1 hy with rfl | hy
          · rfl
          · exact hb.sees y (by simp [hy])
      have := done_makeVec ⟨_, hgone⟩ .bytes bs (.bytes (⟨bs, off⟩ : DataStream).unread) (fun _ => rfl) fun w => ⟨w, rfl, hw.2, ht'.symm⟩
      exact this
    · cases hs
  | baCopiedFromDs s =>
    simp only [Spec.CApi.step] at hs
    split at hs
    · rename_i k u hg; cases hs
      obtain ⟨w', off, bs, G, hb, h1, hw, rfl, rfl⟩ := agree_stream ha hg
      simp only [step, h1, Option.bind_some, DataStream.toBytesLvalue]
      rw [if_pos hw.1]
      refine done_makeVec ha _ _ _ (fun _ => rfl) fun w => ⟨w, rfl, ?_, rfl⟩
      have := hw.2
      simp only [List.length_drop] at this ⊢
      omega
    · cases hs
  | baSize a =>
    simp only [Spec.CApi.step] at hs
    split at hs
    · rename_i b hg; cases hs
      obtain ⟨w, G, hb, h1, h2⟩ := agree_array ha hg
      simp only [step, h1, Option.map_some]
      exact done_ret ha _ (by simp)
    · cases hs
  | baData a n =>
    simp only [Spec.CApi.step] at hs
    split at hs
    · rename_i b hg
      split at hs
      · rename_i hn; cases hs
        obtain ⟨w, G, hb, h1, h2⟩ := agree_array ha hg
        simp only [step, h1, Option.bind_some, if_pos hn]
        exact done_ret ha _ (by simp)
      · cases hs
    · cases hs
  | baSet a i x =>
    simp only [Spec.CApi.step] at hs
    split at hs
    · rename_i b hg
      split at hs
      · rename_i hn; cases hs
        obtain ⟨w, G, hb, h1, h2⟩ := agree_array ha hg
        simp only [step, h1, Option.bind_some]
        cases w with
        | none =>
          have := hb.bare _ (List.mem_cons_self) rfl
          simp only at this
          subst this; simp at hn
        | some q =>
          simp only
          rw [if_pos hn]
          obtain ⟨h', e1, e2⟩ := hb.poke (q := q) (b.set i x) (.bytes (b.set i x)) rfl ⟨some q, rfl, by simpa using h2, rfl⟩
          rw [e1]
          exact ⟨h', .done, rfl, by simp, rfl, _, e2⟩
      · cases hs
    · cases hs
  | hNew => cases hs; exact done_make ha _ _ rfl ⟨_, rfl, by simp [Blob.null], rfl, rfl⟩
  | hFromBytes bs =>
    simp only [Spec.CApi.step] at hs
    split at hs
    · rename_i hf; cases hs
      simp only [step, if_pos hf]
      exact done_make ha _ _ rfl ⟨_, rfl, sees_load (by simp; omega)⟩
    · cases hs
  | hFromArr a =>
    simp only [Spec.CApi.step] at hs
    split at hs
    · rename_i b hg
      obtain ⟨w, G, hb, h1, h2⟩ := agree_array ha hg
      simp only [step, h1, Option.map_some, Blob.ofBytes]
      split at hs
      · rename_i hl; cases hs
        rw [if_neg (by omega)]
        exact done_make ha _ _ rfl ⟨_, rfl, sees_load hl⟩
      · rename_i hl; cases hs
        rw [if_pos (by omega)]
        exact done_ret ha _ (by simp)
    · cases hs
  | hIsNull x =>
    simp only [Spec.CApi.step] at hs
    split at hs
    · rename_i b hg; cases hs
      obtain ⟨y, h1, h2⟩ := agree_blob ha hg
      simp only [step, h1, Option.map_some]
      have : y.isNull = b.isNone := by
        cases b with
        | none => simp [Blob.isNull, h2.2]
        | some v => simp [Blob.isNull, h2.2.1]
      rw [this]
      exact done_ret ha _ (by simp)
    · cases hs
  | hEq x y =>
    simp only [Spec.CApi.step] at hs
    split at hs
    · rename_i v w hg hg'; cases hs
      obtain ⟨a, h1, h2⟩ := agree_blob ha hg
      obtain ⟨b, h3, h4⟩ := agree_blob ha hg'
      simp only [step, h1, h3, Option.bind_some, Option.map_some]
      simp only [Spec.CApi.trouble, hg, hg', Bool.or_eq_false_iff, decide_eq_false_iff_not] at ht
      cases v with
      | none => exact absurd rfl ht.1
      | some v => cases w with
        | none => exact absurd rfl ht.2
        | some w =>
          rw [sees_eq h2 h4]
          simp only [Option.some.injEq]
          exact done_ret ha _ (by simp)
    · cases hs
  | hPut x s =>
    simp only [Spec.CApi.step] at hs
    split at hs
    · rename_i v k u hg hg'
      split at hs
      · rename_i hf; cases hs
        obtain ⟨a, h1, h2⟩ := agree_blob ha hg
        obtain ⟨w', off, bs, G, hb, h3, hw, rfl, rfl⟩ := agree_stream ha hg'
        obtain ⟨e1, e2⟩ := sees_put h2 g.e ⟨bs, off⟩
        simp only [step, h1, h3, Option.bind_some, e1]
        have := done_setStream hb (⟨bs ++ Spec.CApi.hashBytes v, off⟩) ⟨by have := hw.1; simp at *; omega, by have := hf; simp only [Spec.CApi.Fits] at this; simpa [e2] using this⟩ .done (by simp)
        have hu : (⟨bs ++ Spec.CApi.hashBytes v, off⟩ : DataStream).unread = (⟨bs, off⟩ : DataStream).unread ++ Spec.CApi.hashBytes v := by
          simp [DataStream.unread, List.drop_append_of_le_length hw.1]
        rw [hu] at this
        simpa [e2] using this
      · cases hs
    · cases hs
  | hGet x s =>
    simp only [Spec.CApi.step] at hs
    split at hs
    · rename_i v k u hg hg'
      split at hs
      · rename_i hf; cases hs
        obtain ⟨a, bs0, G0, hb0, h1, h2⟩ := agree_hash ha hg
        obtain ⟨w', off, bs, G, hb, h3, hw, rfl, rfl⟩ := agree_stream ha hg'
        obtain ⟨b', t, e1, e2, e3, e4, e5⟩ := sees_get h2 g.e hw hf
        simp only [step, h1, h3, Option.bind_some, e1, if_true]
        obtain ⟨hm, f1, f2⟩ := hb0.modify (.hash b') (.hash (some ((⟨bs, off⟩ : DataStream).unread.take 32))) rfl ⟨b', rfl, e2⟩
        have hne : s ≠ x := by rintro rfl; rw [hg] at hg'; cases hg'
        have hg2 := get_set_ne env (.hash (some ((⟨bs, off⟩ : DataStream).unread.take 32))) hne
        rw [hg'] at hg2
        obtain ⟨w2, off2, bs2, G2, hb2, h32, hw2, hk, hu⟩ := agree_stream ⟨_, f2⟩ hg2
        simp only at f1
        rw [f1]
        simp only [Option.bind_some]
        -- the stream is where it was
        have hobj : stream hm s = some (w', ⟨bs, off⟩) := by
          have ho : find hm s = find h s := find_put_ne f1 hne
          have hoo : obj hm s = some (.stream w' off) := by rw [obj, ho]; exact hb.obj
          have hoo2 := hb2.obj
          simp only at hoo2
          rw [hoo] at hoo2
          cases hoo2
          -- same length and same unread part do not give the same content: the storage is untouched
          have hc : content hm w' = some bs := by
            have h4 := hb.content
            simp only [Obj.vec] at h4
            cases w' with
            | none => exact h4
            | some q =>
              have hqx : q ≠ x := by
                rintro rfl
                have hq1 := find_perm hb.nodup (hb.swap rfl)
                have hq2 := find_perm hb0.nodup hb0.split
                simp only at hq2
                rw [hq1] at hq2
                cases hq2
              have ho : find hm q = find h q := find_put_ne f1 hqx
              simp only [content, ho]
              exact h4
          simp only [stream, hoo, hc, Option.map_some]
        rw [hobj] at h32
        cases h32
        have := done_setOff hb2 t e3 e5 .done (by simp)
        rw [e4] at this
        exact this
      · cases hs
    · cases hs
  | mNew op a =>
    simp only [Spec.CApi.step] at hs
    split at hs
    · rename_i b hg; cases hs
      obtain ⟨w, G, hb, h1, h2⟩ := agree_array ha hg
      obtain ⟨p, h1', h', e1, e2, e3, e4⟩ := hb.steal (.bytes none)
        (.msg 0 op (BitVec.ofNat _ b.length) (Msg.checksumOf g.e g.H1 b) false w) (.gone .bytes) (.msg op 0 (some b)) rfl rfl rfl
        ⟨_, _, _, w, rfl, rfl, rfl, h2, rfl, rfl⟩
      simp only [step, h1, Option.bind_some, e1, Option.map_some, e2]
      exact ⟨h', .ptr p, rfl, by simp, p, rfl, e3, e4⟩
    · cases hs
  | mConsume m =>
    simp only [Spec.CApi.step] at hs
    split at hs
    · rename_i op magic bs hg; cases hs
      obtain ⟨len, sum, no, w, bs', G, hb, h1, h2, h3⟩ := agree_msg ha hg
      obtain ⟨rfl, rfl, h4, h5, h6⟩ := h3
      obtain ⟨p, h1', h', e1, e2, e3, e4⟩ := hb.steal (.msg magic op len sum true none) (.stream w 0) (.msg op magic none) (.stream bs.length bs) rfl rfl
        ⟨_, _, _, none, rfl, rfl⟩ ⟨w, 0, rfl, by simp, h4, rfl, by simp⟩
      simp only [step, h1, Bool.false_eq_true, if_false, e1, Option.map_some, e2]
      exact ⟨h', .ptr p, rfl, by simp, p, rfl, e3, e4⟩
    · rename_i op magic hg
      simp [Spec.CApi.trouble, hg] at ht
    · cases hs
  | mOpcode m =>
    simp only [Spec.CApi.step] at hs
    split at hs
    · rename_i op magic pl hg; cases hs
      obtain ⟨len, sum, no, w, bs', G, hb, h1, h2, h3⟩ := agree_msg ha hg
      simp only [step, h1]
      exact done_ret ha _ (by simp)
    · cases hs
  | mMagic m =>
    simp only [Spec.CApi.step] at hs
    split at hs
    · rename_i op magic pl hg; cases hs
      obtain ⟨len, sum, no, w, bs', G, hb, h1, h2, h3⟩ := agree_msg ha hg
      simp only [step, h1]
      exact done_ret ha _ (by simp)
    · cases hs
  | mSetMagic m v =>
    simp only [Spec.CApi.step] at hs
    split at hs
    · rename_i op magic pl hg; cases hs
      obtain ⟨len, sum, no, w, bs', G, hb, h1, h2, h3⟩ := agree_msg ha hg
      obtain ⟨h', e1, e2⟩ := hb.modify (.msg v op len sum no w) (.msg op v pl) rfl ⟨_, _, _, w, rfl, h3⟩
      simp only at e1
      simp only [step, h1, e1, Option.map_some]
      exact ⟨h', .done, rfl, by simp, rfl, _, e2⟩
    · cases hs
  | mWire m =>
    simp only [Spec.CApi.step] at hs
    split at hs
    · rename_i op magic bs hg
      split at hs
      · rename_i hl; cases hs
        obtain ⟨len, sum, no, w, bs', G, hb, h1, h2, h3⟩ := agree_msg ha hg
        obtain ⟨rfl, rfl, h4, rfl, rfl⟩ := h3
        simp only [step, h1, h2, Option.map_some]
        have : Msg.serialize g.e (⟨magic, op, BitVec.ofNat _ bs.length, Msg.checksumOf g.e g.H1 bs, bs, false⟩ : Msg 1)
            = Spec.Frame.enc ⟨magic.toNat, [op], (Msg.checksumOf g.e g.H1 bs).toNat, bs⟩ := by
          rw [Msg.serialize_eq, Msg.headerBytes, Spec.Frame.enc]
          have h5 : (BitVec.ofNat (8 * 4) bs.length).toNat = bs.length := by simp; omega
          have h6 : memEnc g.e op = [op] := by
            have : Spec.leEnc 1 op.toNat = [op] := by simp [Spec.leEnc]
            cases g.e <;> simp [memEnc, this]
          simp only [h5, h6]
        rw [this]
        exact done_ret ha _ (by simp)
      · cases hs
    · cases hs
  | aNew => cases hs; exact done_make ha _ _ rfl rfl
  | aFromIpPort ip port => cases hs; exact done_make ha _ _ rfl rfl
  | aFromText t =>
    simp only [Spec.CApi.step] at hs
    simp only [step]
    split at hs
    · rename_i a hg; cases hs
      rw [hg]
      exact done_make ha _ _ rfl rfl
    · rename_i hg; cases hs
      rw [hg]
      exact done_ret ha _ (by simp)
  | aCopy a =>
    simp only [Spec.CApi.step] at hs
    split at hs
    · rename_i x hg; cases hs
      simp only [step, agree_addr ha hg]
      exact done_make ha _ _ rfl rfl
    · cases hs
  | aEq a b =>
    simp only [Spec.CApi.step] at hs
    split at hs
    · rename_i x y hg hg'; cases hs
      simp only [step, agree_addr ha hg, agree_addr ha hg']
      have : x.eq y = decide (x = y) := by
        rw [Bool.eq_iff_iff, decide_eq_true_eq]
        cases x; cases y
        simp [NetAddr.eq]
      rw [this]
      exact done_ret ha _ (by simp)
    · cases hs
  | aIsNull a =>
    simp only [Spec.CApi.step] at hs
    split at hs
    · rename_i x hg; cases hs
      simp only [step, agree_addr ha hg]
      have : x.isNull = decide (x = ⟨0, 0⟩) := by
        rw [Bool.eq_iff_iff, decide_eq_true_eq]
        cases x
        simp [NetAddr.isNull]
      rw [this]
      exact done_ret ha _ (by simp)
    · cases hs
  | aIp a =>
    simp only [Spec.CApi.step] at hs
    split at hs
    · rename_i x hg; cases hs
      simp only [step, agree_addr ha hg]
      exact done_ret ha _ (by simp)
    · cases hs
  | aPort a =>
    simp only [Spec.CApi.step] at hs
    split at hs
    · rename_i x hg; cases hs
      simp only [step, agree_addr ha hg]
      exact done_ret ha _ (by simp)
    · cases hs
  | aaNew => cases hs; exact done_make ha _ _ rfl rfl
  | aaFrom l =>
    simp only [Spec.CApi.step, Option.map_eq_some_iff] at hs
    obtain ⟨x, h1, h2⟩ := hs
    cases h2
    simp only [step, addrs_ok ha l x h1, Option.map_some]
    exact done_make ha _ _ rfl rfl
  | pFromAddr a =>
    simp only [Spec.CApi.step] at hs
    split at hs
    · rename_i x hg; cases hs
      have hser : x.serialize g.e DataStream.empty = ⟨memEnc g.e x.ip ++ memEnc g.e x.port, 0⟩ := by
        simp [NetAddr.serialize, DataStream.putInt, DataStream.empty]
      obtain ⟨b, e1, e2, e3, e4⟩ := getHash_spec g.H hH (x.serialize g.e DataStream.empty) (by simp [hser]) (by simp [hser, sizeMod])
      simp only [step, agree_addr ha hg, Digest.idOfAddr, e1, Option.map_some]
      refine done_make ha _ _ rfl ⟨b, rfl, e3, ?_, ?_⟩
      · simpa [Blob.isNull] using e2
      · have := e4 .little
        rw [Blob.toBytes, Blob.serialize_loaded _ _ (by simpa [Blob.isNull] using e2), hser] at this
        simpa [DataStream.empty, DataStream.unread] using this
    · cases hs
  | pFromHash x =>
    simp only [Spec.CApi.step] at hs
    split at hs
    · rename_i v hg; cases hs
      obtain ⟨a, h1, h2⟩ := agree_blob ha hg
      simp only [step, h1, Option.map_some]
      exact done_make ha _ _ rfl ⟨a, rfl, h2⟩
    · cases hs
  | paNew => cases hs; exact done_make ha _ _ rfl ⟨[], rfl, trivial⟩
  | paFrom l =>
    simp only [Spec.CApi.step, Option.map_eq_some_iff] at hs
    obtain ⟨x, h1, h2⟩ := hs
    cases h2
    obtain ⟨b, h3, h4⟩ := peers_ok ha l x h1
    simp only [step, h3, Option.map_some]
    exact done_make ha _ _ rfl ⟨b, rfl, h4⟩
  | textRead p =>
    simp only [Spec.CApi.step] at hs
    split at hs
    · rename_i x hg; cases hs
      simp only [step, agree_text ha hg]
      exact done_ret ha _ (by simp)
    · cases hs
  | aaRead p =>
    simp only [Spec.CApi.step] at hs
    split at hs
    · rename_i x hg; cases hs
      simp only [step, agree_addrs ha hg]
      exact done_ret ha _ (by simp)
    · cases hs
  | paRead p =>
    simp only [Spec.CApi.step] at hs
    split at hs
    · rename_i x hg; cases hs
      obtain ⟨b, h1, h2⟩ := agree_peers ha hg
      have h3 := seesAll_bytes h2
      simp only [Blob.wordBytes] at h3
      simp only [step, h1, h3]
      exact done_ret ha _ (by simp)
    · cases hs
  | free k p =>
    simp only [Spec.CApi.step] at hs
    split at hs
    · rename_i v hg
      split at hs
      · rename_i hk; cases hs
        obtain ⟨x, G, rfl, hb⟩ := agree_get ha hg
        obtain ⟨h1, h', e1, e2, e3⟩ := hb.free
        simp only [step, hb.obj, Option.bind_some, e1, e2, Option.map_some]
        rw [if_pos (hb.self.kind.trans hk)]
        exact ⟨h', .done, rfl, by simp, rfl, e3⟩
      · cases hs
    · cases hs

/-- Every run is followed. -/
theorem run_ok (hH : ∀ x, (g.H x).length = 32) : ∀ (cs : List Call) (h : Heap) (env : Env), Agree g h env →
    match Spec.CApi.follow g Spec.CApi.trouble env (run g h cs).1 with
    | .wrong => False
    | .excused => True
    | .good env' => Agree g (run g h cs).2 env'
  | [], h, env, ha => ha
  | c :: cs, h, env, ha => by
    cases ht : Spec.CApi.trouble env c with
    | true =>
      have : ∃ r t, (run g h (c :: cs)).1 = (c, r) :: t := by
        simp only [run]
        split
        · exact ⟨_, _, rfl⟩
        · split
          · exact ⟨_, _, rfl⟩
          · exact ⟨_, _, rfl⟩
      obtain ⟨r, t, he⟩ := this
      rw [he]
      simp [Spec.CApi.follow, ht]
    | false =>
      cases hs : Spec.CApi.step g env c with
      | none =>
        have : ∃ r t, (run g h (c :: cs)).1 = (c, r) :: t := by
          simp only [run]
          split
          · exact ⟨_, _, rfl⟩
          · split
            · exact ⟨_, _, rfl⟩
            · exact ⟨_, _, rfl⟩
        obtain ⟨r, t, he⟩ := this
        rw [he]
        simp [Spec.CApi.follow, ht, hs]
      | some y =>
        obtain ⟨env', res⟩ := y
        obtain ⟨h', r, e1, e2, e3⟩ := step_ok hH ha c ht env' res hs
        simp only [run, e1, if_neg e2]
        cases res with
        | ret r' =>
          obtain ⟨rfl, e3⟩ := e3
          simp only [Spec.CApi.follow, ht, hs, Bool.false_eq_true, if_false, if_true]
          exact run_ok hH cs h' env' e3
        | made v =>
          obtain ⟨p, rfl, e4, e5⟩ := e3
          simp only [Spec.CApi.follow, ht, hs, Bool.false_eq_true, if_false, if_neg e4]
          exact run_ok hH cs h' _ e5

end CApi
end Salticidae
