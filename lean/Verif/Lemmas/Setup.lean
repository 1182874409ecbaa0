import Verif.Spec.Setup
namespace Salticidae
namespace Setup
open Spec.Setup (Values apply value standard unseen carry copy Excuse lenient badSetting plain plainStmt plainRun)

/-- The members of ConnPool::Config among the options. -/
def connOf (v : Values) : ConnCfg := ⟨v.backlog, v.serverTimeout, v.recvChunk, v.maxRecvBuff, v.maxSendBuff, v.nworker, v.enableTls, v.certFile, v.keyFile,
  v.cert, v.key, v.skipCa, v.verifyCb⟩
def msgOf (v : Values) : MsgCfg := ⟨v.maxMsgSize, v.queueSize, v.burst, v.magic⟩
def peerOf (v : Values) : PeerCfg := ⟨v.ping, v.connTimeout, v.allowUnknown, v.idMode⟩

/-- The object that stands for a configuration. -/
def objOf (k : Cls) (h : List Setting) : Obj := ⟨k, connOf (value h), msgOf (value h), peerOf (value h)⟩

theorem msg_nil : msgOf (value []) = MsgCfg.new := rfl
theorem peer_nil : peerOf (value []) = PeerCfg.new := rfl
theorem conn_nil : connOf (value []) = ConnCfg.new := rfl

theorem fresh_eq (t : Cls) : fresh t = objOf t [] := by cases t <;> rfl

/-- Settings of other classes do not matter. -/
theorem conn_indep (s : Setting) (hs : s.cls ≠ .conn) (v : Values) : connOf (apply v s) = connOf v := by
  cases s <;> first | rfl | exact absurd rfl hs
theorem msg_indep (s : Setting) (hs : s.cls ≠ .msg) (v : Values) : msgOf (apply v s) = msgOf v := by
  cases s <;> first | rfl | exact absurd rfl hs
theorem peer_indep (s : Setting) (hs : s.cls ≠ .peer) (v : Values) : peerOf (apply v s) = peerOf v := by
  cases s <;> first | rfl | exact absurd rfl hs

theorem conn_dep (s : Setting) (v v' : Values) (h : connOf v = connOf v') : connOf (apply v s) = connOf (apply v' s) := by
  simp only [connOf, ConnCfg.mk.injEq] at h
  cases s <;> simp [connOf, apply, h]
theorem msg_dep (s : Setting) (v v' : Values) (h : msgOf v = msgOf v') : msgOf (apply v s) = msgOf (apply v' s) := by
  simp only [msgOf, MsgCfg.mk.injEq] at h
  cases s <;> simp [msgOf, apply, h]
theorem peer_dep (s : Setting) (v v' : Values) (h : peerOf v = peerOf v') : peerOf (apply v s) = peerOf (apply v' s) := by
  simp only [peerOf, PeerCfg.mk.injEq] at h
  cases s <;> simp [peerOf, apply, h]

/-- Leaving out settings of other classes does not matter. -/
theorem fold_filter {α : Type} (f : Values → α) (p : Setting → Bool)
    (h1 : ∀ s v, p s = false → f (apply v s) = f v) (h2 : ∀ s v v', f v = f v' → f (apply v s) = f (apply v' s)) :
    ∀ (h : List Setting) (v v' : Values), f v = f v' → f (h.foldl apply v) = f ((h.filter p).foldl apply v')
  | [], _, _, e => e
  | s :: h, v, v', e => by
    by_cases hp : p s = true
    · rw [List.filter_cons_of_pos hp]
      exact fold_filter f p h1 h2 h _ _ (h2 s v v' e)
    · rw [List.filter_cons_of_neg hp]
      have hp' : p s = false := by simpa using hp
      exact fold_filter f p h1 h2 h _ _ ((h1 s v hp').trans e)

theorem conn_carry (t : Cls) (h : List Setting) : connOf (value (carry t h)) = connOf (value h) :=
  (fold_filter connOf _ (fun s v hp => conn_indep s (fun e => by rw [e] at hp; simp [Cls.rank] at hp) v) conn_dep h _ _ rfl).symm

theorem msg_carry (t : Cls) (ht : t ≠ .conn) (h : List Setting) : msgOf (value (carry t h)) = msgOf (value h) :=
  (fold_filter msgOf _ (fun s v hp => msg_indep s (fun e => by
    rw [e] at hp; cases t <;> simp [Cls.rank] at hp; exact ht rfl) v) msg_dep h _ _ rfl).symm

theorem peer_carry (h : List Setting) : peerOf (value (carry .peer h)) = peerOf (value h) :=
  (fold_filter peerOf _ (fun s v hp => peer_indep s (fun e => by
    rw [e] at hp; simp [Cls.rank] at hp) v) peer_dep h _ _ rfl).symm

theorem msg_none {h : List Setting} (hh : ∀ s ∈ h, s.cls ≠ .msg) : msgOf (value h) = MsgCfg.new := by
  have := fold_filter msgOf (fun s => decide (s.cls = .msg)) (fun s v hp => msg_indep s (of_decide_eq_false hp) v) msg_dep h standard standard rfl
  have e : h.filter (fun s => decide (s.cls = .msg)) = [] := by
    rw [List.filter_eq_nil_iff]; intro s hs; simpa using hh s hs
  rw [e] at this
  exact this

theorem peer_none {h : List Setting} (hh : ∀ s ∈ h, s.cls ≠ .peer) : peerOf (value h) = PeerCfg.new := by
  have := fold_filter peerOf (fun s => decide (s.cls = .peer)) (fun s v hp => peer_indep s (of_decide_eq_false hp) v) peer_dep h standard standard rfl
  have e : h.filter (fun s => decide (s.cls = .peer)) = [] := by
    rw [List.filter_eq_nil_iff]; intro s hs; simpa using hh s hs
  rw [e] at this
  exact this

theorem carry_low {t : Cls} {h : List Setting} {s : Setting} (hs : s ∈ carry t h) : s.cls.rank ≤ t.rank := by
  simpa [carry] using (List.mem_filter.1 hs).2

theorem carry_seen {t st : Cls} {h : List Setting} (hu : unseen t st h = false) {s : Setting} (hs : s ∈ carry t h) : s.cls.rank ≤ st.rank := by
  have h1 := carry_low hs
  rw [unseen, List.any_eq_false] at hu
  have := hu s (List.mem_filter.1 hs).1
  simp only [Bool.and_eq_true, decide_eq_true_eq] at this
  omega

/-- Converting an object whose settings are all visible keeps them. -/
theorem convert_ok {t st k : Cls} {h : List Setting} (hu : unseen t st h = false) : convert t st (objOf k h) = objOf t (carry t h) := by
  have hm : (t = .conn ∨ st = .conn) → msgOf (value (carry t h)) = MsgCfg.new := by
    intro hc
    apply msg_none
    intro s hs e
    have h1 := carry_low hs
    have h2 := carry_seen hu hs
    rw [e] at h1 h2
    rcases hc with rfl | rfl
    · simp [Cls.rank] at h1
    · simp [Cls.rank] at h2
  have hp : (t ≠ .peer ∨ st ≠ .peer) → peerOf (value (carry t h)) = PeerCfg.new := by
    intro hc
    apply peer_none
    intro s hs e
    have h1 := carry_low hs
    have h2 := carry_seen hu hs
    rw [e] at h1 h2
    rcases hc with hc | hc
    · cases t <;> simp_all [Cls.rank]
    · cases st <;> simp_all [Cls.rank]
  have hc := conn_carry t h
  have hm' := fun ht => msg_carry t ht h
  cases t with
  | conn => simp only [convert, objOf, hc, hm (.inl rfl), hp (.inl (by simp))]
  | msg => cases st with
    | conn => simp only [convert, objOf, ofConn, hc, hm (.inr rfl), hp (.inl (by simp))]
    | msg => simp only [convert, objOf, hc, hm' (by simp), hp (.inl (by simp))]
    | peer => simp only [convert, objOf, hc, hm' (by simp), hp (.inl (by simp))]
  | peer => cases st with
    | conn => simp only [convert, objOf, ofConn, ofMsg, hc, hm (.inr rfl), hp (.inr (by simp))]
    | msg => simp only [convert, objOf, ofMsg, hc, hm' (by simp), hp (.inr (by simp))]
    | peer => simp only [convert, objOf, hc, hm' (by simp), peer_carry]

theorem value_snoc (h : List Setting) (s : Setting) : value (h ++ [s]) = apply (value h) s := by simp [value]

theorem set_ok {k : Cls} {h : List Setting} {s : Setting} (hb : badSetting s = false) : set (objOf k h) s = some (objOf k (h ++ [s])) := by
  rw [objOf, objOf, value_snoc]
  cases s with
  | magic x => cases hb
  | skipCa x => rcases x with _ | _ | _ <;> first | rfl | cases hb
  | nworker x =>
    have : max 1 x = if x = 0 then 1 else x := by split <;> omega
    simp [set, connOf, msgOf, peerOf, apply, this]
  | _ => rfl

/-- The storage of the program stands for the configurations. -/
def Rel (w : Mem) (sw : Spec.Setup.Mem) : Prop := w.objs = sw.objs.map (fun o => objOf o.1 o.2) ∧ w.vars = sw.vars

theorem eval_ok : ∀ (e : Expr) {w : Mem} {sw : Spec.Setup.Mem}, Rel w sw → ∀ {sw' x st}, Spec.Setup.eval lenient sw e = some (sw', x, st) →
    ∃ w', eval w e = some (w', x, st) ∧ Rel w' sw'
  | .fresh t, w, sw, h, sw', x, st, he => by
    simp only [Spec.Setup.eval, Option.some.injEq, Prod.mk.injEq] at he
    obtain ⟨rfl, rfl, rfl⟩ := he
    refine ⟨{ w with objs := w.objs ++ [fresh t] }, by simp [eval, h.1], by simp [h.1, fresh_eq], h.2⟩
  | .var i, w, sw, h, sw', x, st, he => by
    simp only [Spec.Setup.eval, Option.bind_eq_some_iff, Option.map_eq_some_iff, Prod.mk.injEq] at he
    obtain ⟨y, h1, o, h2, rfl, rfl, rfl⟩ := he
    refine ⟨w, ?_, h⟩
    simp only [eval, h.1, h.2, h1, Option.bind_some, List.getElem?_map, h2, Option.map_some, objOf]
  | .set e s, w, sw, h, sw', x, st, he => by
    simp only [Spec.Setup.eval] at he
    split at he
    · cases he
    rename_i hb
    have hb' : badSetting s = false := by simpa [lenient] using hb
    simp only [Option.bind_eq_some_iff, Option.map_eq_some_iff, Prod.mk.injEq] at he
    obtain ⟨⟨sw1, y, st1⟩, h1, o, h2, rfl, rfl, rfl⟩ := he
    obtain ⟨w1, e1, r1⟩ := eval_ok e h h1
    refine ⟨{ w1 with objs := w1.objs.set y (objOf o.1 (o.2 ++ [s])) }, ?_, ?_, r1.2⟩
    · simp only [eval, e1, Option.bind_some, r1.1, List.getElem?_map, h2, Option.map_some, set_ok hb']
    · simp only [r1.1, List.map_set]
  | .conv t e, w, sw, h, sw', x, st, he => by
    simp only [Spec.Setup.eval, Option.bind_eq_some_iff, Option.map_eq_some_iff, Prod.mk.injEq] at he
    obtain ⟨⟨sw1, y, st1⟩, h1, o, h2, h3, hc, rfl, rfl, rfl⟩ := he
    obtain ⟨w1, e1, r1⟩ := eval_ok e h h1
    simp only [copy, lenient, Bool.true_and] at hc
    split at hc
    · cases hc
    rename_i hu
    cases hc
    have hu' : unseen t st1 o.2 = false := by simpa using hu
    refine ⟨{ w1 with objs := w1.objs ++ [objOf t (carry t o.2)] }, ?_, ?_, r1.2⟩
    · simp only [eval, e1, Option.bind_some, r1.1, List.getElem?_map, h2, Option.map_some, convert_ok hu', List.length_map]
    · simp only [r1.1, List.map_append, List.map_cons, List.map_nil]

theorem copy_ok {t st : Cls} {h h' : List Setting} (hc : copy lenient t st h = some h') (k : Cls) : convert t st (objOf k h) = objOf t h' := by
  simp only [copy, lenient, Bool.true_and] at hc
  split at hc
  · cases hc
  rename_i hu
  cases hc
  exact convert_ok (by simpa using hu)

theorem exec_ok (s : Stmt) {w : Mem} {sw : Spec.Setup.Mem} (h : Rel w sw) {sw' out} (he : Spec.Setup.exec lenient sw s = some (sw', out)) :
    ∃ w', exec w s = some (w', out.map fun o => objOf o.1 o.2) ∧ Rel w' sw' := by
  cases s with
  | decl t e =>
    simp only [Spec.Setup.exec, Option.bind_eq_some_iff, Option.map_eq_some_iff, Prod.mk.injEq] at he
    obtain ⟨⟨sw1, y, st1⟩, h1, o, h2, h3, hc, rfl, rfl⟩ := he
    obtain ⟨w1, e1, r1⟩ := eval_ok e h h1
    refine ⟨⟨w1.objs ++ [objOf t h3], w1.vars ++ [w1.objs.length]⟩, ?_, ?_, ?_⟩
    · simp only [exec, e1, Option.bind_some, r1.1, List.getElem?_map, h2, Option.map_some, copy_ok hc, Option.map_none]
    · simp only [r1.1, List.map_append, List.map_cons, List.map_nil]
    · simp only [r1.1, r1.2, List.length_map]
  | eff e =>
    simp only [Spec.Setup.exec, Option.map_eq_some_iff, Prod.mk.injEq] at he
    obtain ⟨⟨sw1, y, st1⟩, h1, rfl, rfl⟩ := he
    obtain ⟨w1, e1, r1⟩ := eval_ok e h h1
    exact ⟨w1, by simp only [exec, e1, Option.map_some, Option.map_none], r1⟩
  | assign i e =>
    simp only [Spec.Setup.exec, Option.bind_eq_some_iff, Option.map_eq_some_iff, Prod.mk.injEq] at he
    obtain ⟨⟨sw1, y, st1⟩, h1, o, h2, z, h3, old, h4, h5, hc, rfl, rfl⟩ := he
    obtain ⟨w1, e1, r1⟩ := eval_ok e h h1
    refine ⟨{ w1 with objs := w1.objs.set z (objOf old.1 h5) }, ?_, ?_, r1.2⟩
    · have e2 : (objOf old.1 old.2).cls = old.1 := rfl
      simp only [exec, e1, Option.bind_some, r1.1, r1.2, List.getElem?_map, h2, Option.map_some, h3, h4, e2, copy_ok hc, Option.map_none]
    · simp only [r1.1, List.map_set]
  | net t e =>
    simp only [Spec.Setup.exec, Option.bind_eq_some_iff, Option.map_eq_some_iff, Prod.mk.injEq] at he
    obtain ⟨⟨sw1, y, st1⟩, h1, o, h2, h3, hc, rfl, rfl⟩ := he
    obtain ⟨w1, e1, r1⟩ := eval_ok e h h1
    refine ⟨w1, ?_, r1⟩
    simp only [exec, e1, Option.bind_some, r1.1, List.getElem?_map, h2, Option.map_some, copy_ok hc]

theorem run_ok : ∀ (ss : List Stmt) {w : Mem} {sw : Spec.Setup.Mem}, Rel w sw → ∀ {outs}, Spec.Setup.run lenient sw ss = some outs →
    run w ss = some (outs.map fun o => objOf o.1 o.2)
  | [], _, _, _, _, he => by cases he; rfl
  | s :: ss, w, sw, h, outs, he => by
    simp only [Spec.Setup.run, Option.bind_eq_some_iff, Option.map_eq_some_iff] at he
    obtain ⟨⟨sw1, out⟩, h1, outs', h2, rfl⟩ := he
    obtain ⟨w1, e1, r1⟩ := exec_ok s h h1
    have := run_ok ss r1 h2
    simp only [run, e1, Option.bind_some, this, Option.map_some, List.map_append]
    cases out <;> rfl

theorem given_objOf (t : Cls) (h : List Setting) : Spec.Setup.Given (objOf t h) t (value h) :=
  ⟨rfl, ⟨rfl, rfl, rfl, rfl, rfl, rfl, rfl, rfl, rfl, rfl, rfl, rfl, rfl⟩, fun _ => ⟨rfl, rfl, rfl, rfl⟩, fun _ => ⟨rfl, rfl, rfl, rfl⟩⟩

theorem tls_ok (env : Env) (v : Values) : Spec.Setup.TlsAsked env v (tlsOf env (connOf v)) := by
  obtain ⟨_, _, _, _, _, _, tls, cf, kf, cert, key, skip, cb, _, _, _, _, _, _, _, _⟩ := v
  simp only [tlsOf, certOf, keyOf, connOf]
  cases tls with
  | false => simp [Spec.Setup.TlsAsked]
  | true =>
    cases cert with
    | some c =>
      cases key with
      | some k =>
        cases h3 : env.certOk c <;> cases h4 : env.keyOk k <;> cases h5 : env.matching c k <;> cases skip <;> cases cb <;>
          simp [Spec.Setup.TlsAsked, *]
      | none =>
        cases h4 : env.keyIn kf with
        | none => cases h3 : env.certOk c <;> simp [Spec.Setup.TlsAsked, *]
        | some k =>
          cases h3 : env.certOk c <;> cases h5 : env.matching c k <;> cases skip <;> cases cb <;> simp [Spec.Setup.TlsAsked, *]
    | none =>
      cases h9 : env.certIn cf with
      | none => simp [Spec.Setup.TlsAsked, *]
      | some c =>
        cases key with
        | some k =>
          cases h3 : env.certOk c <;> cases h4 : env.keyOk k <;> cases h5 : env.matching c k <;> cases skip <;> cases cb <;>
            simp [Spec.Setup.TlsAsked, *]
        | none =>
          cases h4 : env.keyIn kf with
          | none => cases h3 : env.certOk c <;> simp [Spec.Setup.TlsAsked, *]
          | some k =>
            cases h3 : env.certOk c <;> cases h5 : env.matching c k <;> cases skip <;> cases cb <;> simp [Spec.Setup.TlsAsked, *]

/-- What is not excused means the same without excuses. -/
theorem copy_mono {t st : Cls} {h h' : List Setting} (hc : copy lenient t st h = some h') : copy Spec.Setup.strict t st h = some h' := by
  simp only [copy, lenient, Bool.true_and] at hc
  split at hc
  · cases hc
  · simpa [copy, Spec.Setup.strict] using hc

theorem eval_mono : ∀ (e : Expr) {sw r}, Spec.Setup.eval lenient sw e = some r → Spec.Setup.eval Spec.Setup.strict sw e = some r
  | .fresh t, _, _, h => h
  | .var i, _, _, h => h
  | .set e s, sw, r, h => by
    simp only [Spec.Setup.eval] at h ⊢
    split at h
    · cases h
    rw [if_neg (by simp [Spec.Setup.strict])]
    simp only [Option.bind_eq_some_iff, Option.map_eq_some_iff] at h ⊢
    obtain ⟨a, h1, o, h2, rfl⟩ := h
    exact ⟨a, eval_mono e h1, o, h2, rfl⟩
  | .conv t e, sw, r, h => by
    simp only [Spec.Setup.eval, Option.bind_eq_some_iff, Option.map_eq_some_iff] at h ⊢
    obtain ⟨a, h1, o, h2, x, h3, rfl⟩ := h
    exact ⟨a, eval_mono e h1, o, h2, x, copy_mono h3, rfl⟩

theorem exec_mono (s : Stmt) {sw r} (h : Spec.Setup.exec lenient sw s = some r) : Spec.Setup.exec Spec.Setup.strict sw s = some r := by
  cases s with
  | decl t e =>
    simp only [Spec.Setup.exec, Option.bind_eq_some_iff, Option.map_eq_some_iff] at h ⊢
    obtain ⟨a, h1, o, h2, x, h3, rfl⟩ := h
    exact ⟨a, eval_mono e h1, o, h2, x, copy_mono h3, rfl⟩
  | eff e =>
    simp only [Spec.Setup.exec, Option.map_eq_some_iff] at h ⊢
    obtain ⟨a, h1, rfl⟩ := h
    exact ⟨a, eval_mono e h1, rfl⟩
  | assign i e =>
    simp only [Spec.Setup.exec, Option.bind_eq_some_iff, Option.map_eq_some_iff] at h ⊢
    obtain ⟨a, h1, o, h2, y, h3, old, h4, x, h5, rfl⟩ := h
    exact ⟨a, eval_mono e h1, o, h2, y, h3, old, h4, x, copy_mono h5, rfl⟩
  | net t e =>
    simp only [Spec.Setup.exec, Option.bind_eq_some_iff, Option.map_eq_some_iff] at h ⊢
    obtain ⟨a, h1, o, h2, x, h3, rfl⟩ := h
    exact ⟨a, eval_mono e h1, o, h2, x, copy_mono h3, rfl⟩

theorem run_mono : ∀ (ss : List Stmt) {sw r}, Spec.Setup.run lenient sw ss = some r → Spec.Setup.run Spec.Setup.strict sw ss = some r
  | [], _, _, h => h
  | s :: ss, sw, r, h => by
    simp only [Spec.Setup.run, Option.bind_eq_some_iff, Option.map_eq_some_iff] at h ⊢
    obtain ⟨a, h1, o, h2, rfl⟩ := h
    exact ⟨a, exec_mono s h1, o, run_mono ss h2, rfl⟩

/-- Variables refer to objects of their type. -/
structure Typed (vars : List Cls) (sw : Spec.Setup.Mem) : Prop where
  len : vars.length = sw.vars.length
  var : ∀ {i : Nat} {t : Cls}, vars[i]? = some t → ∃ (x : Nat) (o : Cls × List Setting), sw.vars[i]? = some x ∧ sw.objs[x]? = some o ∧ o.1 = t

/-- Objects may be added or get other settings, but keep their class. -/
def Grows (sw sw' : Spec.Setup.Mem) : Prop := sw'.vars = sw.vars ∧ ∀ (x : Nat) (o : Cls × List Setting), sw.objs[x]? = some o → ∃ o' : Cls × List Setting, sw'.objs[x]? = some o' ∧ o'.1 = o.1

theorem Grows.rfl {sw} : Grows sw sw := ⟨Eq.refl _, fun _ o h => ⟨o, h, Eq.refl _⟩⟩

theorem Grows.trans {a b c} (h1 : Grows a b) (h2 : Grows b c) : Grows a c :=
  ⟨h2.1.trans h1.1, fun x o h => by
    obtain ⟨o1, e1, c1⟩ := h1.2 x o h
    obtain ⟨o2, e2, c2⟩ := h2.2 x o1 e1
    exact ⟨o2, e2, c2.trans c1⟩⟩

theorem grows_add (sw : Spec.Setup.Mem) (o) : Grows sw { sw with objs := sw.objs ++ [o] } :=
  ⟨rfl, fun x p h => ⟨p, by
    have := (List.getElem?_eq_some_iff.1 h).1
    simp only [List.getElem?_append_left this, h], rfl⟩⟩

theorem grows_set (sw : Spec.Setup.Mem) (x : Nat) (o) (ho : sw.objs[x]? = some o) (h) : Grows sw { sw with objs := sw.objs.set x (o.1, h) } := by
  refine ⟨rfl, fun y p hp => ?_⟩
  by_cases e : x = y
  · subst e
    rw [ho] at hp; cases hp
    have := (List.getElem?_eq_some_iff.1 ho).1
    exact ⟨(o.1, h), by simp [this], rfl⟩
  · exact ⟨p, by simp only [List.getElem?_set, if_neg e, hp], rfl⟩

theorem typed_grows {vars sw sw'} (h : Typed vars sw) (hg : Grows sw sw') : Typed vars sw' :=
  ⟨by rw [hg.1]; exact h.len, fun hi => by
    obtain ⟨x, o, e1, e2, rfl⟩ := h.var hi
    obtain ⟨o', e3, e4⟩ := hg.2 x o e2
    exact ⟨x, o', by rw [hg.1]; exact e1, e3, e4⟩⟩

theorem copy_plain {ex : Excuse} {t st : Cls} (hp : (!ex.loses || decide (t.rank ≤ st.rank)) = true) (h : List Setting) :
    copy ex t st h = some (carry t h) := by
  rw [copy, if_neg]
  intro hc
  rw [Bool.and_eq_true] at hc
  rw [hc.1] at hp
  have h1 : t.rank ≤ st.rank := by simpa using hp
  have h2 := hc.2
  rw [unseen, List.any_eq_true] at h2
  obtain ⟨s, _, h3⟩ := h2
  simp only [Bool.and_eq_true, decide_eq_true_eq] at h3
  omega

/-- A conversion in a plain expression. -/
theorem plain_conv {ex : Excuse} {vars t e st} (hp : plain ex vars (.conv t e) = true) (ht : typeOf vars e = some st) :
    plain ex vars e = true ∧ (!ex.loses || decide (t.rank ≤ st.rank)) = true := by
  simp only [plain, ht, Option.all_some, Bool.and_eq_true] at hp
  exact hp

/-- An expression that compiles has a meaning. -/
theorem eval_some : ∀ (e : Expr) {ex : Excuse} {vars sw st}, Typed vars sw → typeOf vars e = some st → plain ex vars e = true →
    ∃ sw' x o, Spec.Setup.eval ex sw e = some (sw', x, st) ∧ sw'.objs[x]? = some o ∧ Grows sw sw'
  | .fresh t, ex, vars, sw, st, h, ht, hp => by
    simp only [typeOf, Option.some.injEq] at ht
    subst ht
    exact ⟨_, _, (t, []), rfl, by simp, grows_add sw _⟩
  | .var i, ex, vars, sw, st, h, ht, hp => by
    obtain ⟨x, o, e1, e2, rfl⟩ := h.var ht
    exact ⟨sw, x, o, by simp [Spec.Setup.eval, e1, e2], e2, Grows.rfl⟩
  | .set e s, ex, vars, sw, st, h, ht, hp => by
    simp only [typeOf, Option.bind_eq_some_iff] at ht
    obtain ⟨st1, h1, h2⟩ := ht
    split at h2
    · cases h2
      simp only [plain, Bool.and_eq_true, Bool.not_eq_true'] at hp
      obtain ⟨sw1, x, o, e1, e2, g1⟩ := eval_some e h h1 hp.2
      have hx := (List.getElem?_eq_some_iff.1 e2).1
      refine ⟨{ sw1 with objs := sw1.objs.set x (o.1, o.2 ++ [s]) }, x, (o.1, o.2 ++ [s]), ?_, ?_, g1.trans (grows_set sw1 x o e2 _)⟩
      · rw [Spec.Setup.eval, if_neg (by simp [hp.1])]
        simp only [e1, Option.bind_some, e2, Option.map_some]
      · simp [hx]
    · cases h2
  | .conv t e, ex, vars, sw, st, h, ht, hp => by
    simp only [typeOf, Option.map_eq_some_iff] at ht
    obtain ⟨st1, h1, rfl⟩ := ht
    have hp := plain_conv hp h1
    obtain ⟨sw1, x, o, e1, e2, g1⟩ := eval_some e h h1 hp.1
    refine ⟨{ sw1 with objs := sw1.objs ++ [(t, carry t o.2)] }, sw1.objs.length, (t, carry t o.2), ?_, by simp, g1.trans (grows_add sw1 _)⟩
    simp only [Spec.Setup.eval, e1, Option.bind_some, e2, copy_plain hp.2, Option.map_some]

theorem exec_some (s : Stmt) {ex : Excuse} {vars vars' sw} (h : Typed vars sw) (ht : typeStmt vars s = some vars') (hp : plainStmt ex vars s = true) :
    ∃ sw' out, Spec.Setup.exec ex sw s = some (sw', out) ∧ Typed vars' sw' := by
  cases s with
  | decl t e =>
    simp only [typeStmt, Option.map_eq_some_iff] at ht
    obtain ⟨st, h1, rfl⟩ := ht
    have hp := plain_conv hp h1
    obtain ⟨sw1, x, o, e1, e2, g1⟩ := eval_some e h h1 hp.1
    have h2 := typed_grows h (g1.trans (grows_add sw1 (t, carry t o.2)))
    have hv : sw1.vars = sw.vars := g1.1
    refine ⟨⟨sw1.objs ++ [(t, carry t o.2)], sw1.vars ++ [sw1.objs.length]⟩, none, ?_, ?_, ?_⟩
    · simp only [Spec.Setup.exec, e1, Option.bind_some, e2, copy_plain hp.2, Option.map_some]
    · simp [h.len, hv]
    · intro i t' hi
      by_cases hl : i < vars.length
      · rw [List.getElem?_append_left hl] at hi
        obtain ⟨y, p, e3, e4, e5⟩ := h2.var hi
        refine ⟨y, p, ?_, e4, e5⟩
        simp only at e3 ⊢
        rw [List.getElem?_append_left (by rw [hv, ← h.len]; exact hl)]
        exact e3
      · have hi' : i = vars.length := by
          have := (List.getElem?_eq_some_iff.1 hi).1
          simp at this
          omega
        subst hi'
        have e6 : t = t' := by simpa using hi
        subst e6
        refine ⟨sw1.objs.length, (t, carry t o.2), ?_, by simp, rfl⟩
        simp only [h.len, ← hv]
        simp
  | eff e =>
    simp only [typeStmt, Option.map_eq_some_iff] at ht
    obtain ⟨st, h1, rfl⟩ := ht
    obtain ⟨sw1, x, o, e1, e2, g1⟩ := eval_some e h h1 hp
    exact ⟨sw1, none, by simp only [Spec.Setup.exec, e1, Option.map_some], typed_grows h g1⟩
  | assign i e =>
    simp only [typeStmt, Option.bind_eq_some_iff] at ht
    obtain ⟨st, h1, t, h2, h3⟩ := ht
    split at h3
    · cases h3
      simp only [plainStmt, h2, Option.all_some] at hp
      have hp := plain_conv hp h1
      obtain ⟨sw1, x, o, e1, e2, g1⟩ := eval_some e h h1 hp.1
      obtain ⟨y, old, e3, e4, rfl⟩ := (typed_grows h g1).var h2
      refine ⟨{ sw1 with objs := sw1.objs.set y (old.1, carry old.1 o.2) }, none, ?_, typed_grows h (g1.trans (grows_set sw1 y old e4 _))⟩
      simp only [Spec.Setup.exec, e1, Option.bind_some, e2, e3, e4, copy_plain hp.2, Option.map_some]
    · cases h3
  | net t e =>
    simp only [typeStmt, Option.bind_eq_some_iff] at ht
    obtain ⟨st, h1, h3⟩ := ht
    split at h3
    · cases h3
      have hp := plain_conv hp h1
      obtain ⟨sw1, x, o, e1, e2, g1⟩ := eval_some e h h1 hp.1
      refine ⟨sw1, some (t, carry t o.2), ?_, typed_grows h g1⟩
      simp only [Spec.Setup.exec, e1, Option.bind_some, e2, copy_plain hp.2, Option.map_some]
    · cases h3

theorem run_some : ∀ (ss : List Stmt) {ex : Excuse} {vars sw}, Typed vars sw → compiles vars ss = true → plainRun ex vars ss = true →
    ∃ outs, Spec.Setup.run ex sw ss = some outs
  | [], _, _, _, _, _, _ => ⟨[], rfl⟩
  | s :: ss, ex, vars, sw, h, hc, hp => by
    simp only [compiles] at hc
    split at hc
    · rename_i vars' ht
      simp only [plainRun, ht, Option.all_some, Bool.and_eq_true] at hp
      obtain ⟨sw', out, e1, h1⟩ := exec_some s h ht hp.1
      obtain ⟨outs, e2⟩ := run_some ss h1 hc hp.2
      exact ⟨out.toList ++ outs, by simp only [Spec.Setup.run, e1, Option.bind_some, e2, Option.map_some]⟩
    · cases hc

theorem plain_strict (vars : List Cls) : ∀ e : Expr, plain Spec.Setup.strict vars e = true
  | .fresh _ => rfl
  | .var _ => rfl
  | .set e s => by
    have := plain_strict vars e
    simp only [Spec.Setup.strict] at this
    simp [plain, Spec.Setup.strict, this]
  | .conv t e => by
    have := plain_strict vars e
    simp only [Spec.Setup.strict] at this
    simp [plain, Spec.Setup.strict, this]

theorem plainRun_strict : ∀ (ss : List Stmt) (vars : List Cls), plainRun Spec.Setup.strict vars ss = true
  | [], _ => rfl
  | s :: ss, vars => by
    have h1 : plainStmt Spec.Setup.strict vars s = true := by
      cases s with
      | assign i e =>
        simp only [plainStmt, plain_strict]
        cases vars[i]? <;> rfl
      | _ => simp only [plainStmt, plain_strict]
    rw [plainRun, h1, Bool.true_and]
    cases typeStmt vars s with
    | none => rfl
    | some v => exact plainRun_strict ss v

/-- Type correct C programs compile and are plain. -/
theorem c_plain : ∀ (cs : List Spec.Setup.CCall) (vars : List Cls), Spec.Setup.cTyped vars cs = true →
    compiles vars (cs.map (·.stmt)) = true ∧ plainRun lenient vars (cs.map (·.stmt)) = true
  | [], _, _ => ⟨rfl, rfl⟩
  | .configNew t :: cs, vars, h => by
    simp only [Spec.Setup.cTyped, Bool.and_eq_true] at h
    have := c_plain cs _ h.2
    constructor
    · simpa [compiles, typeStmt, typeOf, Spec.Setup.CCall.stmt] using this.1
    · simpa [plainRun, plainStmt, plain, typeStmt, typeOf, Spec.Setup.CCall.stmt] using this.2
  | .set i s :: cs, vars, h => by
    simp only [Spec.Setup.cTyped, Bool.and_eq_true, Option.any_eq_true, decide_eq_true_eq] at h
    obtain ⟨⟨h1, t, h2, h3⟩, h4⟩ := h
    have := c_plain cs _ h4
    have hb : badSetting s = false := by cases s <;> first | rfl | cases h1
    constructor
    · simpa [compiles, typeStmt, typeOf, Spec.Setup.CCall.stmt, h2, h3] using this.1
    · simpa [plainRun, plainStmt, plain, typeStmt, typeOf, Spec.Setup.CCall.stmt, h2, h3, lenient, hb] using this.2
  | .netNew t i :: cs, vars, h => by
    simp only [Spec.Setup.cTyped, Bool.and_eq_true, Option.any_eq_true, decide_eq_true_eq] at h
    obtain ⟨⟨h1, k, h2, h3⟩, h4⟩ := h
    have := c_plain cs _ h4
    have h5 : implicitly k t = true := by simp only [implicitly, decide_eq_true_eq]; omega
    constructor
    · simpa [compiles, typeStmt, typeOf, Spec.Setup.CCall.stmt, h2, h5] using this.1
    · simpa [plainRun, plainStmt, plain, typeStmt, typeOf, Spec.Setup.CCall.stmt, h2, h3, h5, lenient] using this.2

theorem typed_nil : Typed [] ⟨[], []⟩ := ⟨rfl, fun h => by cases h⟩

end Setup
end Salticidae
