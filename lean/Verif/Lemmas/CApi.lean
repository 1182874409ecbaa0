import Verif.Spec.CApi
import Verif.Lemmas.Digest
import Verif.Lemmas.Msg
import Verif.Props.Stream
namespace Salticidae
namespace CApi
open Spec.CApi (Val Env Result)

/-! ### Lists of pairs with distinct first components -/

theorem at_find {α : Type} {l R : List (Nat × α)} {p : Nat} {c : α} (hn : (l.map (·.1)).Nodup) (h : l.Perm ((p, c) :: R)) :
    (l.find? (fun x => x.1 = p)).map (·.2) = some c := by
  have hm : (p, c) ∈ l := h.symm.subset (by simp)
  cases hf : l.find? (fun x => x.1 = p) with
  | none => exact absurd (List.find?_eq_none.1 hf _ hm) (by simp)
  | some y =>
    have hy := List.mem_of_find?_eq_some hf
    have hp := List.find?_some hf
    simp only [decide_eq_true_eq] at hp
    have : y = (p, c) := by
      have hn' : (((p, c) :: R).map (·.1)).Nodup := (h.map _).nodup_iff.1 hn
      have hy' := h.subset hy
      simp only [List.map_cons, List.nodup_cons] at hn'
      rcases List.mem_cons.1 hy' with e | e
      · exact e
      · exact absurd (List.mem_map.2 ⟨y, e, hp⟩) hn'.1
    rw [this]; rfl

theorem keys_cons {α : Type} {l R : List (Nat × α)} {p : Nat} {c : α} (hn : (l.map (·.1)).Nodup) (h : l.Perm ((p, c) :: R)) :
    p ∉ R.map (·.1) ∧ (R.map (·.1)).Nodup := by
  have hn' : (((p, c) :: R).map (·.1)).Nodup := (h.map _).nodup_iff.1 hn
  simpa only [List.map_cons, List.nodup_cons] using hn'

theorem at_map {α : Type} {l R : List (Nat × α)} {p : Nat} {c : α} (c' : α) (hn : (l.map (·.1)).Nodup) (h : l.Perm ((p, c) :: R)) :
    (l.map fun x => if x.1 = p then (p, c') else x).Perm ((p, c') :: R) := by
  refine (h.map _).trans ?_
  rw [List.map_cons, if_pos rfl]
  have : R.map (fun x => if x.1 = p then (p, c') else x) = R := by
    conv => rhs; rw [← List.map_id R]
    refine List.map_congr_left fun x hx => ?_
    rw [if_neg, id]
    intro e
    exact (keys_cons hn h).1 (List.mem_map.2 ⟨x, hx, e⟩)
  rw [this]

theorem at_filter {α : Type} {l R : List (Nat × α)} {p : Nat} {c : α} (hn : (l.map (·.1)).Nodup) (h : l.Perm ((p, c) :: R)) :
    (l.filter fun x => x.1 ≠ p).Perm R := by
  refine (h.filter _).trans ?_
  rw [List.filter_cons_of_neg (by simp)]
  have : R.filter (fun x => decide (x.1 ≠ p)) = R := by
    rw [List.filter_eq_self]
    intro x hx
    simp only [ne_eq, decide_not, Bool.not_eq_eq_eq_not, Bool.not_true, decide_eq_false_iff_not]
    intro e
    exact (keys_cons hn h).1 (List.mem_map.2 ⟨x, hx, e⟩)
  rw [this]

theorem keys_nodup {α : Type} {l R : List (Nat × α)} (h : l.Perm R) : (l.map (·.1)).Nodup ↔ (R.map (·.1)).Nodup :=
  (h.map _).nodup_iff

/-! ### The heap -/

theorem find_perm {h R : Heap} {p : Nat} {c : Cell} (hn : (h.map (·.1)).Nodup) (hp : h.Perm ((p, c) :: R)) : find h p = some c :=
  at_find hn hp

theorem put_perm {h R : Heap} {p : Nat} {c : Cell} (c' : Cell) (hn : (h.map (·.1)).Nodup) (hp : h.Perm ((p, c) :: R)) :
    ∃ h', put h p c' = some h' ∧ h'.Perm ((p, c') :: R) ∧ (h'.map (·.1)).Nodup := by
  refine ⟨_, ?_, at_map c' hn hp, ?_⟩
  · rw [put, find_perm hn hp]; rfl
  · rw [keys_nodup (at_map c' hn hp)]
    simpa using keys_cons hn hp

theorem del_perm {h R : Heap} {p : Nat} {c : Cell} (hn : (h.map (·.1)).Nodup) (hp : h.Perm ((p, c) :: R)) :
    ∃ h', del h p = some h' ∧ h'.Perm R ∧ (h'.map (·.1)).Nodup := by
  refine ⟨_, ?_, at_filter hn hp, ?_⟩
  · rw [del, find_perm hn hp]; rfl
  · rw [keys_nodup (at_filter hn hp)]
    exact (keys_cons hn hp).2

theorem malloc_perm (A : Alloc) {h R : Heap} (c : Cell) (hn : (h.map (·.1)).Nodup) (hp : h.Perm R) :
    ∃ p, malloc A h c = ((p, c) :: h, p) ∧ p ∉ h.map (·.1) ∧ ((p, c) :: h).Perm ((p, c) :: R) ∧ (((p, c) :: h).map (·.1)).Nodup := by
  refine ⟨_, rfl, A.fresh _, hp.cons _, ?_⟩
  rw [List.map_cons, List.nodup_cons]
  exact ⟨A.fresh _, hn⟩

/-! ### Objects and values -/

/-- An object with its content. -/
structure Ent where
  p : Nat
  o : Obj
  bs : List Byte

/-- The memory an object takes. -/
def cells (x : Ent) : Heap :=
  (x.p, .obj x.o) :: match x.o.vec with
    | none => []
    | some q => [(q, .raw x.bs)]

/-- The bytes of a hash value. -/
def SeesHash (b : Blob 8) (v : Option (List Byte)) : Prop :=
  b.data.length = 4 ∧
  match v with
  | none => b.loaded = false ∧ b.data = List.replicate 4 0
  | some bs => b.loaded = true ∧ Blob.wordBytes b.data = bs

/-- Several hash values. -/
def SeesHashes : List (Blob 8) → List (Option (List Byte)) → Prop
  | [], [] => True
  | b :: bs, v :: vs => SeesHash b v ∧ SeesHashes bs vs
  | _, _ => False

/-- The payload of a message. -/
def SeesPayload (e : Endian) (H1 : List Byte → List Byte) (pl : Option (List Byte)) (bs : List Byte) (len sum : BitVec (8 * 4)) (no : Bool) : Prop :=
  match pl with
  | none => no = true
  | some b => no = false ∧ b = bs ∧ bs.length < 2 ^ 63 ∧ len = BitVec.ofNat _ bs.length ∧ sum = Msg.checksumOf e H1 bs

/-- What the program may think of an object. -/
def Sees (e : Endian) (H1 : List Byte → List Byte) (o : Obj) (bs : List Byte) (v : Val) : Prop :=
  match v with
  | .gone k => o.kind = k
  | .stream kept u => ∃ w off, o = .stream w off ∧ off ≤ bs.length ∧ bs.length < 2 ^ 63 ∧ kept = bs.length ∧ u = bs.drop off
  | .bytes b => ∃ w, o = .bytes w ∧ bs.length < 2 ^ 63 ∧ b = bs
  | .hash v => ∃ b, o = .hash b ∧ SeesHash b v
  | .msg op magic pl => ∃ len sum no w, o = .msg magic op len sum no w ∧ SeesPayload e H1 pl bs len sum no
  | .addr a => o = .addr a
  | .addrs l => o = .addrs l
  | .peer v => ∃ b, o = .peer b ∧ SeesHash b v
  | .peers l => ∃ bs, o = .peers bs ∧ SeesHashes bs l
  | .text t => o = .text t

theorem Sees.kind {e H1} {o : Obj} {bs : List Byte} {v : Val} (h : Sees e H1 o bs v) : o.kind = v.kind := by
  cases v <;> simp only [Sees] at h
  case gone => exact h
  case stream => obtain ⟨_, _, rfl, _⟩ := h; rfl
  case bytes => obtain ⟨_, rfl, _⟩ := h; rfl
  case hash => obtain ⟨_, rfl, _⟩ := h; rfl
  case msg => obtain ⟨_, _, _, _, rfl, _⟩ := h; rfl
  case addr => rw [h]; rfl
  case addrs => rw [h]; rfl
  case peer => obtain ⟨_, rfl, _⟩ := h; rfl
  case peers => obtain ⟨_, rfl, _⟩ := h; rfl
  case text => rw [h]; rfl

/-- The memory holds exactly the objects of the program, each apart from the others. -/
structure AgreeG (g : Cfg) (h : Heap) (env : Env) (G : List (Ent × Val)) : Prop where
  heap : h.Perm (G.flatMap fun x => cells x.1)
  nodup : (h.map (·.1)).Nodup
  env : env.Perm (G.map fun x => (x.1.p, x.2))
  bare : ∀ x ∈ G, x.1.o.vec = none → x.1.bs = []
  sees : ∀ x ∈ G, Sees g.e g.H1 x.1.o x.1.bs x.2

def Agree (g : Cfg) (h : Heap) (env : Env) : Prop := ∃ G, AgreeG g h env G

theorem agree_init (g : Cfg) : Agree g [] [] := ⟨[], by simp, by simp, by simp, by simp, by simp⟩

theorem agree_empty {g : Cfg} {h : Heap} (ha : Agree g h []) : h = [] := by
  obtain ⟨G, ha⟩ := ha
  have : G = [] := by simpa using ha.env.symm
  subst this
  simpa using ha.heap

variable {g : Cfg} {h : Heap} {env : Env} {G : List (Ent × Val)} {x : Ent} {v : Val}

theorem AgreeG.perm {G'} (ha : AgreeG g h env G) (hp : G.Perm G') : AgreeG g h env G' :=
  ⟨ha.heap.trans (hp.flatMap_right _), ha.nodup, ha.env.trans (hp.map _), fun x hx => ha.bare x (hp.symm.subset hx),
    fun x hx => ha.sees x (hp.symm.subset hx)⟩

theorem AgreeG.keys (ha : AgreeG g h env G) : ∀ p ∈ env.map (·.1), p ∈ h.map (·.1) := by
  intro p hp
  obtain ⟨y, hy, rfl⟩ := List.mem_map.1 hp
  obtain ⟨z, hz, rfl⟩ := List.mem_map.1 (ha.env.subset hy)
  refine List.mem_map.2 ⟨(z.1.p, .obj z.1.o), ha.heap.symm.subset ?_, rfl⟩
  exact List.mem_flatMap.2 ⟨z, hz, by simp [cells]⟩

theorem ps_sublist (G : List (Ent × Val)) : (G.map fun x => x.1.p).Sublist ((G.flatMap fun x => cells x.1).map (·.1)) := by
  induction G with
  | nil => simp
  | cons x G ih =>
    rw [List.flatMap_cons, List.map_append, List.map_cons, cells, List.map_cons]
    refine List.Sublist.cons_cons _ ?_
    exact ih.trans (List.sublist_append_right _ _)

theorem AgreeG.envNodup (ha : AgreeG g h env G) : (env.map (·.1)).Nodup := by
  rw [keys_nodup ha.env, List.map_map]
  exact List.Nodup.sublist (ps_sublist G) ((keys_nodup ha.heap).1 ha.nodup)

theorem agree_get {p : Nat} (ha : Agree g h env) (hg : Spec.CApi.get env p = some v) : ∃ x G, x.p = p ∧ AgreeG g h env ((x, v) :: G) := by
  obtain ⟨G, ha⟩ := ha
  simp only [Spec.CApi.get, Option.map_eq_some_iff] at hg
  obtain ⟨y, hy, rfl⟩ := hg
  have hm := List.mem_of_find?_eq_some hy
  have hk := List.find?_some hy
  simp only [decide_eq_true_eq] at hk
  obtain ⟨z, hz, rfl⟩ := List.mem_map.1 (ha.env.subset hm)
  obtain ⟨G1, G2, rfl⟩ := List.append_of_mem hz
  exact ⟨z.1, G1 ++ G2, hk, ha.perm List.perm_middle⟩

theorem AgreeG.split (ha : AgreeG g h env ((x, v) :: G)) : h.Perm (cells x ++ G.flatMap fun x => cells x.1) := by
  simpa using ha.heap

theorem AgreeG.self (ha : AgreeG g h env ((x, v) :: G)) : Sees g.e g.H1 x.o x.bs v := ha.sees (x, v) (by simp)

theorem AgreeG.obj (ha : AgreeG g h env ((x, v) :: G)) : obj h x.p = some x.o := by
  rw [CApi.obj, find_perm ha.nodup ha.split]

theorem AgreeG.swap {q : Nat} (ha : AgreeG g h env ((x, v) :: G)) (hq : x.o.vec = some q) :
    h.Perm ((q, .raw x.bs) :: (x.p, .obj x.o) :: G.flatMap fun x => cells x.1) := by
  refine ha.split.trans ?_
  rw [cells, hq]
  exact List.Perm.swap _ _ _

theorem AgreeG.content (ha : AgreeG g h env ((x, v) :: G)) : content h x.o.vec = some x.bs := by
  cases hq : x.o.vec with
  | none => rw [ha.bare (x, v) (by simp) hq]; rfl
  | some q => simp only [CApi.content, find_perm ha.nodup (ha.swap hq)]

theorem AgreeG.envPerm (ha : AgreeG g h env ((x, v) :: G)) : env.Perm ((x.p, v) :: G.map fun x => (x.1.p, x.2)) := ha.env

/-- The object changes, its storage stays. -/
theorem AgreeG.modify (ha : AgreeG g h env ((x, v) :: G)) (o' : Obj) (v' : Val) (hv : o'.vec = x.o.vec) (hs : Sees g.e g.H1 o' x.bs v') :
    ∃ h', put h x.p (.obj o') = some h' ∧ AgreeG g h' (Spec.CApi.set env x.p v') (({ x with o := o' }, v') :: G) := by
  obtain ⟨h', h1, h2, h3⟩ := put_perm (.obj o') ha.nodup ha.split
  refine ⟨h', h1, ?_, h3, at_map v' ha.envNodup ha.envPerm, ?_, ?_⟩
  · rw [List.flatMap_cons, cells]
    simpa [hv] using h2
  · intro y hy
    rcases List.mem_cons.1 hy with rfl | hy
    · intro hn; exact ha.bare (x, v) (by simp) (hv ▸ hn)
    · exact ha.bare y (by simp [hy])
  · intro y hy
    rcases List.mem_cons.1 hy with rfl | hy
    · exact hs
    · exact ha.sees y (by simp [hy])

/-- A byte of the storage is overwritten. -/
theorem AgreeG.poke {q : Nat} (ha : AgreeG g h env ((x, v) :: G)) (bs' : List Byte) (v' : Val) (hq : x.o.vec = some q)
    (hs : Sees g.e g.H1 x.o bs' v') :
    ∃ h', put h q (.raw bs') = some h' ∧ AgreeG g h' (Spec.CApi.set env x.p v') (({ x with bs := bs' }, v') :: G) := by
  obtain ⟨h', h1, h2, h3⟩ := put_perm (.raw bs') ha.nodup (ha.swap hq)
  refine ⟨h', h1, ?_, h3, at_map v' ha.envNodup ha.envPerm, ?_, ?_⟩
  · rw [List.flatMap_cons, cells]
    simp only [hq]
    exact h2.trans (List.Perm.swap _ _ _)
  · intro y hy
    rcases List.mem_cons.1 hy with rfl | hy
    · intro hn; simp [hq] at hn
    · exact ha.bare y (by simp [hy])
  · intro y hy
    rcases List.mem_cons.1 hy with rfl | hy
    · exact hs
    · exact ha.sees y (by simp [hy])

/-- A new object. -/
theorem AgreeG.make (ha : AgreeG g h env G) (o : Obj) (v : Val) (hv : o.vec = none) (hs : Sees g.e g.H1 o [] v) :
    ∃ p h', create g h o = (h', .ptr p) ∧ p ∉ env.map (·.1) ∧ Agree g h' ((p, v) :: env) := by
  obtain ⟨p, h1, h2, h3, h4⟩ := malloc_perm g.A (.obj o) ha.nodup ha.heap
  refine ⟨p, (p, .obj o) :: h, by simp [create, h1], fun hp => h2 (ha.keys p hp), (⟨p, o, []⟩, v) :: G, ?_, h4, ha.env.cons _, ?_, ?_⟩
  · rw [List.flatMap_cons, cells]
    simpa [hv] using h3
  · intro y hy
    rcases List.mem_cons.1 hy with rfl | hy
    · intro _; rfl
    · exact ha.bare y hy
  · intro y hy
    rcases List.mem_cons.1 hy with rfl | hy
    · exact hs
    · exact ha.sees y hy

/-- A new object with new storage. -/
theorem AgreeG.makeVec (ha : AgreeG g h env G) (o : Vec → Obj) (bs : List Byte) (v : Val) (hv : ∀ w, (o w).vec = w)
    (hs : ∀ w, Sees g.e g.H1 (o w) bs v) :
    ∃ p h', mkVec g h bs o = (h', .ptr p) ∧ p ∉ env.map (·.1) ∧ Agree g h' ((p, v) :: env) := by
  by_cases hb : bs = []
  · subst hb
    simpa [mkVec, vecNew] using ha.make (o none) v (hv none) (hs none)
  · obtain ⟨q, h1, h2, h3, h4⟩ := malloc_perm g.A (.raw bs) ha.nodup ha.heap
    obtain ⟨p, h5, h6, h7, h8⟩ := malloc_perm g.A (.obj (o (some q))) h4 h3
    refine ⟨p, _, by simp only [mkVec, vecNew, if_neg hb, h1, create, h5], fun hp => h6 (by simp [ha.keys p hp] ), (⟨p, o (some q), bs⟩, v) :: G, ?_, h8, ha.env.cons _, ?_, ?_⟩
    · rw [List.flatMap_cons, cells]
      simpa [hv] using h7
    · intro y hy
      rcases List.mem_cons.1 hy with rfl | hy
      · intro hn; simp [hv] at hn
      · exact ha.bare y hy
    · intro y hy
      rcases List.mem_cons.1 hy with rfl | hy
      · exact hs _
      · exact ha.sees y hy

/-- The storage of one object goes to a new one. -/
theorem AgreeG.steal (ha : AgreeG g h env ((x, v) :: G)) (o0 o1 : Obj) (v0 v1 : Val) (h0 : o0.vec = none) (h1 : o1.vec = x.o.vec)
    (hs0 : Sees g.e g.H1 o0 [] v0) (hs1 : Sees g.e g.H1 o1 x.bs v1) :
    ∃ p h1 h', put h x.p (.obj o0) = some h1 ∧ create g h1 o1 = (h', .ptr p) ∧ p ∉ (Spec.CApi.set env x.p v0).map (·.1) ∧
      Agree g h' ((p, v1) :: Spec.CApi.set env x.p v0) := by
  obtain ⟨h1', e1, e2, e3⟩ := put_perm (.obj o0) ha.nodup ha.split
  obtain ⟨p, e5, e6, e7, e8⟩ := malloc_perm g.A (.obj o1) e3 e2
  have hps : (Spec.CApi.set env x.p v0).Perm ((x.p, v0) :: G.map fun x => (x.1.p, x.2)) := at_map v0 ha.envNodup ha.envPerm
  refine ⟨p, h1', (p, .obj o1) :: h1', e1, by simp [create, e5], ?_, (⟨p, o1, x.bs⟩, v1) :: (⟨x.p, o0, []⟩, v0) :: G, ?_, e8, ?_, ?_, ?_⟩
  · intro hp
    apply e6
    have hk : (Spec.CApi.set env x.p v0).map (·.1) = env.map (·.1) := by
      rw [Spec.CApi.set, List.map_map]
      refine List.map_congr_left fun y _ => ?_
      simp only [Function.comp]
      split
      · rename_i e; exact e.symm
      · rfl
    rw [hk] at hp
    have hk2 : h1'.map (·.1) = h.map (·.1) := by
      rw [put] at e1
      split at e1
      · cases e1
        rw [List.map_map]
        refine List.map_congr_left fun y _ => ?_
        simp only [Function.comp]
        split
        · rename_i e; exact e.symm
        · rfl
      · cases e1
    rw [hk2]
    exact ha.keys p hp
  · refine e7.trans ?_
    simp only [List.flatMap_cons, cells, h0, h1]
    cases x.o.vec with
    | none => simp
    | some q =>
      simp only [List.cons_append, List.nil_append]
      exact (List.Perm.swap _ _ _).cons _
  · exact hps.cons _
  · intro y hy
    rcases List.mem_cons.1 hy with rfl | hy
    · intro hn; exact ha.bare (x, v) (by simp) (h1 ▸ hn)
    · rcases List.mem_cons.1 hy with rfl | hy
      · intro _; rfl
      · exact ha.bare y (by simp [hy])
  · intro y hy
    rcases List.mem_cons.1 hy with rfl | hy
    · exact hs1
    · rcases List.mem_cons.1 hy with rfl | hy
      · exact hs0
      · exact ha.sees y (by simp [hy])

/-- An object is destroyed. -/
theorem AgreeG.free (ha : AgreeG g h env ((x, v) :: G)) :
    ∃ h1 h', vecFree h x.o.vec = some h1 ∧ del h1 x.p = some h' ∧ Agree g h' (Spec.CApi.del env x.p) := by
  have hps : (Spec.CApi.del env x.p).Perm (G.map fun x => (x.1.p, x.2)) := at_filter ha.envNodup ha.envPerm
  have key : ∀ h1 : Heap, h1.Perm ((x.p, .obj x.o) :: G.flatMap fun x => cells x.1) → (h1.map (·.1)).Nodup →
      ∃ h', del h1 x.p = some h' ∧ Agree g h' (Spec.CApi.del env x.p) := by
    intro h1 hp hn
    obtain ⟨h', e1, e2, e3⟩ := del_perm hn hp
    exact ⟨h', e1, G, e2, e3, hps, fun y hy => ha.bare y (by simp [hy]), fun y hy => ha.sees y (by simp [hy])⟩
  cases hq : x.o.vec with
  | none =>
    have := ha.split
    rw [cells, hq] at this
    obtain ⟨h', e1, e2⟩ := key h this ha.nodup
    exact ⟨h, h', rfl, e1, e2⟩
  | some q =>
    obtain ⟨h1, e1, e2, e3⟩ := del_perm ha.nodup (ha.swap hq)
    obtain ⟨h', e4, e5⟩ := key h1 e2 e3
    exact ⟨h1, h', e1, e4, e5⟩

/-- The content changes. -/
theorem AgreeG.refill (ha : AgreeG g h env ((x, v) :: G)) (bs' : List Byte) (o' : Vec → Obj) (v' : Val) (hv : ∀ w, (o' w).vec = w)
    (hs : ∀ w, Sees g.e g.H1 (o' w) bs' v') :
    ∃ y h', vecSet g.A h x.o.vec bs' = some y ∧ put y.1 x.p (.obj (o' y.2)) = some h' ∧ Agree g h' (Spec.CApi.set env x.p v') := by
  have hps : (Spec.CApi.set env x.p v').Perm ((x.p, v') :: G.map fun x => (x.1.p, x.2)) := at_map v' ha.envNodup ha.envPerm
  -- from the memory with the new storage and the old object
  have key : ∀ (y : Heap × Vec), (y.2 = none → bs' = []) →
      y.1.Perm ((x.p, .obj x.o) :: ((match y.2 with | none => [] | some q => [(q, .raw bs')]) ++ G.flatMap fun x => cells x.1)) →
      (y.1.map (·.1)).Nodup → ∃ h', put y.1 x.p (.obj (o' y.2)) = some h' ∧ Agree g h' (Spec.CApi.set env x.p v') := by
    intro y hb hp hn
    obtain ⟨h', e1, e2, e3⟩ := put_perm (.obj (o' y.2)) hn hp
    refine ⟨h', e1, (⟨x.p, o' y.2, bs'⟩, v') :: G, ?_, e3, hps, ?_, ?_⟩
    · rw [List.flatMap_cons, cells]
      simpa [hv] using e2
    · intro z hz
      rcases List.mem_cons.1 hz with rfl | hz
      · intro hn; exact hb (by simpa [hv] using hn)
      · exact ha.bare z (by simp [hz])
    · intro z hz
      rcases List.mem_cons.1 hz with rfl | hz
      · exact hs _
      · exact ha.sees z (by simp [hz])
  cases hq : x.o.vec with
  | none =>
    have hp := ha.split
    rw [cells, hq] at hp
    simp only [vecSet]
    by_cases hb : bs' = []
    · obtain ⟨h', e1, e2⟩ := key (h, none) (fun _ => hb) (by simpa using hp) ha.nodup
      exact ⟨(h, none), h', by simp [vecNew, hb], e1, e2⟩
    · obtain ⟨q, h1, h2, h3, h4⟩ := malloc_perm g.A (.raw bs') ha.nodup hp
      obtain ⟨h', e1, e2⟩ := key ((q, .raw bs') :: h, some q) (by simp) (by
        refine h3.trans ?_
        simp only [List.cons_append, List.nil_append]
        exact List.Perm.swap _ _ _) h4
      exact ⟨_, h', by simp only [vecNew, if_neg hb, h1], e1, e2⟩
  | some q =>
    have hp := ha.swap hq
    have hc := ha.content
    rw [hq] at hc
    simp only [vecSet, hc, Option.bind_some]
    split
    · obtain ⟨h1, e1, e2, e3⟩ := put_perm (.raw bs') ha.nodup hp
      obtain ⟨h', e4, e5⟩ := key (h1, some q) (by simp) (by
        refine e2.trans ?_
        simp only [List.cons_append, List.nil_append]
        exact List.Perm.swap _ _ _) e3
      exact ⟨_, h', by simp [e1], e4, e5⟩
    · obtain ⟨q', h1, h2, h3, h4⟩ := malloc_perm g.A (.raw bs') ha.nodup hp
      obtain ⟨h5, e1, e2, e3⟩ := del_perm h4 (h3.trans (List.Perm.swap _ _ _))
      obtain ⟨h', e4, e5⟩ := key (h5, some q') (by simp) (by
        refine e2.trans ?_
        simp only [List.cons_append, List.nil_append]
        exact List.Perm.swap _ _ _) e3
      exact ⟨_, h', by simp [h1, e1], e4, e5⟩

/-! ### Reading objects -/

theorem agree_stream {p k : Nat} {u : List Byte} (ha : Agree g h env) (hg : Spec.CApi.get env p = some (.stream k u)) :
    ∃ w off bs G, AgreeG g h env ((⟨p, .stream w off, bs⟩, .stream k u) :: G) ∧ stream h p = some (w, ⟨bs, off⟩) ∧
      (⟨bs, off⟩ : DataStream).Wf ∧ k = bs.length ∧ u = (⟨bs, off⟩ : DataStream).unread := by
  obtain ⟨⟨p, o, bs⟩, G, rfl, ha⟩ := agree_get ha hg
  obtain ⟨w, off, rfl, h1, h2, h3, h4⟩ := ha.self
  exact ⟨w, off, bs, G, ha, by simp only [stream, ha.obj]; rw [show w = (Obj.stream w off).vec from rfl, ha.content]; rfl,
    ⟨h1, h2⟩, h3, h4⟩

theorem agree_array {p : Nat} {b : List Byte} (ha : Agree g h env) (hg : Spec.CApi.get env p = some (.bytes b)) :
    ∃ w G, AgreeG g h env ((⟨p, .bytes w, b⟩, .bytes b) :: G) ∧ array h p = some (w, b) ∧ b.length < 2 ^ 63 := by
  obtain ⟨⟨p, o, bs⟩, G, rfl, ha⟩ := agree_get ha hg
  obtain ⟨w, rfl, h2, rfl⟩ := ha.self
  exact ⟨w, G, ha, by simp only [array, ha.obj]; rw [show w = (Obj.bytes w).vec from rfl, ha.content]; rfl, h2⟩

theorem agree_hash {p : Nat} {b : Option (List Byte)} (ha : Agree g h env) (hg : Spec.CApi.get env p = some (.hash b)) :
    ∃ x bs G, AgreeG g h env ((⟨p, .hash x, bs⟩, .hash b) :: G) ∧ obj h p = some (.hash x) ∧ SeesHash x b := by
  obtain ⟨⟨p, o, bs⟩, G, rfl, ha⟩ := agree_get ha hg
  obtain ⟨x, rfl, h1⟩ := ha.self
  exact ⟨x, bs, G, ha, ha.obj, h1⟩

theorem agree_peer {p : Nat} {b : Option (List Byte)} (ha : Agree g h env) (hg : Spec.CApi.get env p = some (.peer b)) :
    ∃ x, obj h p = some (.peer x) ∧ SeesHash x b := by
  obtain ⟨⟨p, o, bs⟩, G, rfl, ha⟩ := agree_get ha hg
  obtain ⟨x, rfl, h1⟩ := ha.self
  exact ⟨x, ha.obj, h1⟩

theorem agree_blob {p : Nat} {b : Option (List Byte)} (ha : Agree g h env) (hg : Spec.CApi.hashOf env p = some b) :
    ∃ x, blobAt h p = some x ∧ SeesHash x b := by
  simp only [Spec.CApi.hashOf] at hg
  split at hg
  · rename_i v hg'; cases hg
    obtain ⟨x, _, _, _, h1, h2⟩ := agree_hash ha hg'
    exact ⟨x, by simp only [blobAt, h1], h2⟩
  · rename_i v hg'; cases hg
    obtain ⟨x, h1, h2⟩ := agree_peer ha hg'
    exact ⟨x, by simp only [blobAt, h1], h2⟩
  · cases hg

theorem agree_text {p : Nat} {t : List Char} (ha : Agree g h env) (hg : Spec.CApi.get env p = some (.text t)) : obj h p = some (.text t) := by
  obtain ⟨⟨p, o, bs⟩, G, rfl, ha⟩ := agree_get ha hg
  have : o = .text t := ha.self
  subst this
  exact ha.obj

theorem agree_addrs {p : Nat} {l : List NetAddr} (ha : Agree g h env) (hg : Spec.CApi.get env p = some (.addrs l)) : obj h p = some (.addrs l) := by
  obtain ⟨⟨p, o, bs⟩, G, rfl, ha⟩ := agree_get ha hg
  have : o = .addrs l := ha.self
  subst this
  exact ha.obj

theorem sees_bytes {b : Blob 8} {v : Option (List Byte)} (hs : SeesHash b v) : Blob.wordBytes b.data = Spec.CApi.hashBytes v := by
  cases v with
  | none => rw [hs.2.2]; decide
  | some bs => exact hs.2.2

theorem seesAll_bytes : ∀ {l : List (Blob 8)} {vs : List (Option (List Byte))}, SeesHashes l vs →
    (l.map fun b => Blob.wordBytes b.data) = vs.map Spec.CApi.hashBytes
  | [], [], _ => rfl
  | b :: l, v :: vs, h => by
    rw [List.map_cons, List.map_cons, sees_bytes h.1, seesAll_bytes h.2]
  | [], _ :: _, h => h.elim
  | _ :: _, [], h => h.elim

theorem agree_peers {p : Nat} {l : List (Option (List Byte))} (ha : Agree g h env) (hg : Spec.CApi.get env p = some (.peers l)) :
    ∃ bs, obj h p = some (.peers bs) ∧ SeesHashes bs l := by
  obtain ⟨⟨p, o, bs⟩, G, rfl, ha⟩ := agree_get ha hg
  obtain ⟨x, rfl, h1⟩ := ha.self
  exact ⟨x, ha.obj, h1⟩

theorem agree_addr {p : Nat} {a : NetAddr} (ha : Agree g h env) (hg : Spec.CApi.get env p = some (.addr a)) :
    obj h p = some (.addr a) := by
  obtain ⟨⟨p, o, bs⟩, G, rfl, ha⟩ := agree_get ha hg
  have : o = .addr a := ha.self
  subst this
  exact ha.obj

theorem agree_msg {p : Nat} {op : BitVec (8 * 1)} {magic : BitVec (8 * 4)} {pl : Option (List Byte)} (ha : Agree g h env)
    (hg : Spec.CApi.get env p = some (.msg op magic pl)) :
    ∃ len sum no w bs G, AgreeG g h env ((⟨p, .msg magic op len sum no w, bs⟩, .msg op magic pl) :: G) ∧
      obj h p = some (.msg magic op len sum no w) ∧ content h w = some bs ∧ SeesPayload g.e g.H1 pl bs len sum no := by
  obtain ⟨⟨p, o, bs⟩, G, rfl, ha⟩ := agree_get ha hg
  obtain ⟨len, sum, no, w, rfl, h1⟩ := ha.self
  exact ⟨len, sum, no, w, bs, G, ha, ha.obj, ha.content, h1⟩

theorem addrs_ok (ha : Agree g h env) : ∀ (l : List Nat) (r : List NetAddr), Spec.CApi.addrsOf env l = some r → addrsAt h l = some r
  | [], _, hr => hr
  | a :: l, r, hr => by
    simp only [Spec.CApi.addrsOf] at hr
    split at hr
    · rename_i x hx
      simp only [Option.map_eq_some_iff] at hr
      obtain ⟨r', h1, rfl⟩ := hr
      simp only [addrsAt, agree_addr ha hx, addrs_ok ha l r' h1, Option.map_some]
    · cases hr

theorem peers_ok (ha : Agree g h env) : ∀ (l : List Nat) (r : List (Option (List Byte))), Spec.CApi.peersOf env l = some r →
    ∃ b, peersAt h l = some b ∧ SeesHashes b r
  | [], r, hr => by cases hr; exact ⟨[], rfl, trivial⟩
  | a :: l, r, hr => by
    simp only [Spec.CApi.peersOf] at hr
    split at hr
    · rename_i x hx
      simp only [Option.map_eq_some_iff] at hr
      obtain ⟨r', h1, rfl⟩ := hr
      obtain ⟨y, hy, hs⟩ := agree_peer ha hx
      obtain ⟨b, hb, hs'⟩ := peers_ok ha l r' h1
      exact ⟨y :: b, by simp only [peersAt, hy, hb, Option.map_some], hs, hs'⟩
    · cases hr

/-! ### Hash values -/

theorem sees_load {bs : List Byte} (hl : bs.length = 32) : SeesHash (Blob.load 8 4 bs) (some bs) := by
  obtain ⟨h1, h2⟩ := Blob.load_bytes (w := 8) (by decide) 4 bs hl
  exact ⟨h2, rfl, h1⟩

theorem sees_put {b : Blob 8} {v : Option (List Byte)} (hs : SeesHash b v) (e : Endian) (s : DataStream) :
    b.serialize e s = { s with buffer := s.buffer ++ Spec.CApi.hashBytes v } ∧ (Spec.CApi.hashBytes v).length = 32 := by
  obtain ⟨h1, h2⟩ := hs
  cases v with
  | none =>
    rw [Blob.serialize_null e b h2.1, h1]
    exact ⟨rfl, by simp [Spec.CApi.hashBytes]⟩
  | some bs =>
    rw [Blob.serialize_loaded e b h2.1, h2.2]
    refine ⟨rfl, ?_⟩
    simp only [Spec.CApi.hashBytes, Option.getD_some]
    rw [← h2.2, Blob.wordBytes_length, h1]

theorem sees_get {b : Blob 8} {v : Option (List Byte)} (hs : SeesHash b v) (e : Endian) {s : DataStream} (hw : s.Wf) (hl : 32 ≤ s.unread.length) :
    ∃ b' t, b.unserialize e s = (b', t, true) ∧ SeesHash b' (some (s.unread.take 32)) ∧ t.Wf ∧ t.unread = s.unread.drop 32 ∧ t.buffer = s.buffer := by
  have h32 : (s.unread.take 32).length = 32 := by simp; omega
  obtain ⟨h1, h2⟩ := Blob.load_bytes (w := 8) (by decide) 4 _ h32
  obtain ⟨t, ht, w1, u1⟩ := Blob.unserLoop_ok e (Blob.load 8 4 (s.unread.take 32)).data s hw (rest := s.unread.drop 32) (by rw [h1, List.take_append_drop])
  rw [h2] at ht
  have hbuf : ∀ n (s : DataStream), (Blob.unserLoop e 8 n s).2.1.buffer = s.buffer := by
    intro n
    induction n with
    | zero => intro s; rfl
    | succ n ih =>
      intro s
      simp only [Blob.unserLoop]
      split
      · rename_i s' x hx
        have : s'.buffer = s.buffer := by
          simp only [DataStream.getInt] at hx
          split at hx
          · cases hx
          · split at hx
            · cases hx; rfl
            · cases hx
        rw [← this]
        exact ih s'
      · rfl
  refine ⟨⟨(Blob.load 8 4 (s.unread.take 32)).data, true⟩, t, ?_, ⟨h2, rfl, h1⟩, w1, u1, ?_⟩
  · simp only [Blob.unserialize, hs.1, ht, if_true]
    rw [List.drop_of_length_le (by rw [h2, hs.1]; exact Nat.le_refl _), List.append_nil]
  · have := hbuf 4 s
    rw [ht] at this
    exact this

theorem sees_eq {a b : Blob 8} {v w : List Byte} (ha : SeesHash a (some v)) (hb : SeesHash b (some w)) : a.eq b = decide (v = w) := by
  obtain ⟨a1, a2, a3⟩ := ha
  obtain ⟨b1, b2, b3⟩ := hb
  have h1 := Blob.eqLoop_iff a.data b.data (a1.trans b1.symm)
  have h2 := Blob.wordBytes_inj a.data b.data (a1.trans b1.symm)
  rw [← a3, ← b3, Bool.eq_iff_iff, decide_eq_true_eq, h2]
  exact h1

theorem get_set_ne (env : Env) {p q : Nat} (v : Val) (hne : q ≠ p) : Spec.CApi.get (Spec.CApi.set env p v) q = Spec.CApi.get env q := by
  induction env with
  | nil => rfl
  | cons x env ih =>
    simp only [Spec.CApi.get, Spec.CApi.set, List.map_cons, List.find?_cons] at ih ⊢
    by_cases hx : x.1 = p
    · have h1 : ¬ p = q := fun e => hne e.symm
      have h2 : ¬ x.1 = q := fun e => hne (e.symm.trans hx)
      simp only [if_pos hx, h1, h2, decide_false]
      exact ih
    · simp only [if_neg hx]
      by_cases hq : x.1 = q
      · simp only [hq, decide_true]
      · simp only [hq, decide_false]
        exact ih

/-! ### One call -/

/-- What a call has to have done. -/
def Done (g : Cfg) (x : Option (Heap × Ret)) (env' : Env) (res : Result) : Prop :=
  ∃ h' r, x = some (h', r) ∧ r ≠ .abort ∧
    match res with
    | .ret r' => r = r' ∧ Agree g h' env'
    | .made v => ∃ p, r = .ptr p ∧ p ∉ env'.map (·.1) ∧ Agree g h' ((p, v) :: env')

theorem done_make (ha : Agree g h env) (o : Obj) (v : Val) (hv : o.vec = none) (hs : Sees g.e g.H1 o [] v) :
    Done g (some (create g h o)) env (.made v) := by
  obtain ⟨G, ha⟩ := ha
  obtain ⟨p, h', h1, h2, h3⟩ := ha.make o v hv hs
  exact ⟨h', .ptr p, by rw [h1], by simp, p, rfl, h2, h3⟩

theorem done_makeVec (ha : Agree g h env) (o : Vec → Obj) (bs : List Byte) (v : Val) (hv : ∀ w, (o w).vec = w)
    (hs : ∀ w, Sees g.e g.H1 (o w) bs v) : Done g (some (mkVec g h bs o)) env (.made v) := by
  obtain ⟨G, ha⟩ := ha
  obtain ⟨p, h', h1, h2, h3⟩ := ha.makeVec o bs v hv hs
  exact ⟨h', .ptr p, by rw [h1], by simp, p, rfl, h2, h3⟩

theorem done_ret (ha : Agree g h env) (r : Ret) (hr : r ≠ .abort) : Done g (some (h, r)) env (.ret r) := ⟨h, r, rfl, hr, rfl, ha⟩

/-- A stream changes. -/
theorem done_setStream {p k : Nat} {u : List Byte} {w : Vec} {off : Nat} {bs : List Byte} (ha : AgreeG g h env ((⟨p, .stream w off, bs⟩, .stream k u) :: G))
    (d : DataStream) (hd : d.Wf) (r : Ret) (hr : r ≠ .abort) :
    Done g ((setStream g h p w d).map fun h' => (h', r)) (Spec.CApi.set env p (.stream d.buffer.length d.unread)) (.ret r) := by
  obtain ⟨y, h', h1, h2, h3⟩ := ha.refill d.buffer (.stream · d.offset) (.stream d.buffer.length d.unread) (fun _ => rfl)
    (fun w => ⟨w, d.offset, rfl, hd.1, hd.2, rfl, rfl⟩)
  refine ⟨h', r, ?_, hr, rfl, h3⟩
  have h1' : vecSet g.A h w d.buffer = some y := h1
  simp only [setStream, h1', Option.bind_some]
  have h2' : put y.1 p (.obj (.stream y.2 d.offset)) = some h' := h2
  rw [h2']; rfl

/-- A stream is read. -/
theorem done_setOff {p k : Nat} {u : List Byte} {w : Vec} {off : Nat} {bs : List Byte} (ha : AgreeG g h env ((⟨p, .stream w off, bs⟩, .stream k u) :: G))
    (d : DataStream) (hd : d.Wf) (hb : d.buffer = bs) (r : Ret) (hr : r ≠ .abort) :
    Done g ((setOff h p w d.offset).map fun h' => (h', r)) (Spec.CApi.set env p (.stream bs.length d.unread)) (.ret r) := by
  subst hb
  obtain ⟨h', h1, h2⟩ := ha.modify (.stream w d.offset) (.stream d.buffer.length d.unread) rfl ⟨w, d.offset, rfl, hd.1, hd.2, rfl, rfl⟩
  refine ⟨h', r, ?_, hr, rfl, _, h2⟩
  have h1' : put h p (.obj (.stream w d.offset)) = some h' := h1
  simp only [setOff, h1', Option.map_some]

end CApi
end Salticidae
