import Verif.Spec.Sock
namespace Salticidae
namespace Sock
open Spec.Sock

/-- A connection that is in the pool. -/
def LiveAt (s : St) (i : Nat) (fd : Nat) : Prop := ∃ x, s.conns[i]? = some x ∧ x.term = false ∧ x.fd = fd

structure Inv (L : List Nat) (s : St) : Prop where
  bad : s.bad = false
  own : ∀ fd, s.tab fd = some .lib ↔ (s.lfd = some fd ∨ (∃ i, LiveAt s i fd) ∨ fd ∈ L)
  l1 : ∀ fd, s.lfd = some fd → (∀ i, ¬ LiveAt s i fd) ∧ fd ∉ L
  l2 : ∀ i fd, LiveAt s i fd → fd ∉ L ∧ ∀ j, LiveAt s j fd → j = i
  ev : ∀ x, s.evl = some x → s.lfd = some x.1
  st : s.stopped = true → ∀ i fd, ¬ LiveAt s i fd
  ds : s.destroyed = true → s.stopped = true ∧ s.lfd = none

theorem inv_init : Inv [] init := by
  refine ⟨rfl, ?_, ?_, ?_, ?_, ?_, ?_⟩ <;> simp [init, LiveAt]

theorem live_append {s : St} {l : List Conn} {y : Conn} {i fd : Nat} (hl : s.conns = l ++ [y]) :
    LiveAt s i fd ↔ (∃ x, l[i]? = some x ∧ x.term = false ∧ x.fd = fd) ∨ (i = l.length ∧ y.term = false ∧ y.fd = fd) := by
  unfold LiveAt
  rw [hl]
  by_cases h : i < l.length
  · rw [List.getElem?_append_left h]
    constructor
    · exact .inl
    · rintro (h1 | ⟨h1, _⟩)
      · exact h1
      · omega
  · by_cases h2 : i = l.length
    · subst h2
      simp
    · have h3 : (l ++ [y])[i]? = none := by simp; omega
      have h4 : l[i]? = none := by simp; omega
      simp [h3, h4, h2]

theorem live_set {s : St} {l : List Conn} {c : Nat} {x y : Conn} {i fd : Nat} (hc : l[c]? = some x) (hl : s.conns = l.set c y) :
    LiveAt s i fd ↔ (i ≠ c ∧ ∃ z, l[i]? = some z ∧ z.term = false ∧ z.fd = fd) ∨ (i = c ∧ y.term = false ∧ y.fd = fd) := by
  unfold LiveAt
  rw [hl]
  have hlt : c < l.length := (List.getElem?_eq_some_iff.mp hc).1
  by_cases h : i = c
  · subst h
    simp [List.getElem?_set_self hlt]
  · rw [List.getElem?_set_ne (Ne.symm h)]
    simp [h]

theorem live_same {s t : St} {c : Nat} {x y : Conn} {i fd : Nat} (hc : s.conns[c]? = some x) (hl : t.conns = s.conns.set c y)
    (ht : y.term = x.term) (hf : y.fd = x.fd) : LiveAt t i fd ↔ LiveAt s i fd := by
  rw [live_set hc hl, ht, hf]
  constructor
  · rintro (⟨_, h⟩ | ⟨h1, h2, h3⟩)
    · exact h
    · subst h1; exact ⟨x, hc, h2, h3⟩
  · rintro ⟨z, hz, h2, h3⟩
    by_cases e : i = c
    · subst e; rw [hc] at hz; cases hz; exact .inr ⟨rfl, h2, h3⟩
    · exact .inl ⟨e, z, hz, h2, h3⟩

/-- A change that leaves descriptors and the life of connections alone. -/
theorem Inv.same {L : List Nat} {s t : St} (h : Inv L s) (hb : t.bad = s.bad) (ht : ∀ fd, t.tab fd = some .lib ↔ s.tab fd = some .lib)
    (hl : t.lfd = s.lfd) (hc : ∀ i fd, LiveAt t i fd ↔ LiveAt s i fd) (he : ∀ x, t.evl = some x → s.evl = some x) (hs : t.stopped = s.stopped)
    (hd : t.destroyed = s.destroyed) : Inv L t := by
  refine ⟨by rw [hb, h.bad], fun fd => ?_, fun fd hf => ?_, fun i fd hf => ?_, fun x hx => ?_, fun hx => ?_, by rw [hd, hs, hl]; exact h.ds⟩
  · rw [ht, h.own, hl]
    simp only [hc]
  · rw [hl] at hf
    have := h.l1 fd hf
    exact ⟨fun i hi => this.1 i ((hc i fd).mp hi), this.2⟩
  · have := h.l2 i fd ((hc i fd).mp hf)
    exact ⟨this.1, fun j hj => this.2 j ((hc j fd).mp hj)⟩
  · rw [hl]; exact h.ev x (he x hx)
  · rw [hs] at hx
    exact fun i fd hi => h.st hx i fd ((hc i fd).mp hi)

/-- A new connection on a descriptor that nobody had. -/
theorem Inv.add {L : List Nat} {s t : St} {fd : Nat} {y : Conn} (h : Inv L s) (hf : s.tab fd = none) (hy : y.term = false) (hfd : y.fd = fd)
    (hb : t.bad = s.bad) (ht : t.tab = (setTab s fd (some .lib)).tab) (hl : t.lfd = s.lfd) (hc : t.conns = s.conns ++ [y])
    (he : t.evl = s.evl) (hs : t.stopped = false) (hds : t.destroyed = s.destroyed) (hss : s.stopped = false) : Inv L t := by
  have hn : ¬ s.tab fd = some .lib := by rw [hf]; simp
  rw [h.own] at hn
  have hn1 : s.lfd ≠ some fd := fun e => hn (.inl e)
  have hn2 : ∀ i, ¬ LiveAt s i fd := fun i e => hn (.inr (.inl ⟨i, e⟩))
  have hn3 : fd ∉ L := fun e => hn (.inr (.inr e))
  have hlive : ∀ i d, LiveAt t i d ↔ LiveAt s i d ∨ (i = s.conns.length ∧ d = fd) := by
    intro i d
    rw [live_append hc]
    simp only [LiveAt, hy, hfd, true_and]
    constructor
    · rintro (h1 | ⟨h1, h2⟩)
      · exact .inl h1
      · exact .inr ⟨h1, h2.symm⟩
    · rintro (h1 | ⟨h1, h2⟩)
      · exact .inl h1
      · exact .inr ⟨h1, h2.symm⟩
  have hlen : ∀ i d, LiveAt s i d → i < s.conns.length := by
    rintro i d ⟨x, hx, _⟩
    exact (List.getElem?_eq_some_iff.mp hx).1
  refine ⟨by rw [hb, h.bad], fun d => ?_, fun d hd => ?_, fun i d hd => ?_, fun x hx => ?_, fun hx => ?_,
    fun hx => by rw [hds] at hx; have := (h.ds hx).1; rw [hss] at this; cases this⟩
  · rw [ht, hl]
    simp only [setTab, hlive]
    by_cases hd : d = fd
    · subst hd
      simp only [if_true, true_iff]
      exact .inr (.inl ⟨_, .inr ⟨rfl, trivial⟩⟩)
    · rw [if_neg hd, h.own]
      simp [hd]
  · rw [hl] at hd
    have hdf : d ≠ fd := fun e => hn1 (e ▸ hd)
    refine ⟨fun i hi => ?_, (h.l1 d hd).2⟩
    rcases (hlive i d).mp hi with h1 | ⟨_, h1⟩
    · exact (h.l1 d hd).1 i h1
    · exact hdf h1
  · rcases (hlive i d).mp hd with h1 | ⟨h1, h2⟩
    · refine ⟨(h.l2 i d h1).1, fun j hj => ?_⟩
      rcases (hlive j d).mp hj with h3 | ⟨_, h3⟩
      · exact (h.l2 i d h1).2 j h3
      · exact absurd (h3 ▸ h1) (hn2 i)
    · subst h2
      refine ⟨hn3, fun j hj => ?_⟩
      rcases (hlive j d).mp hj with h3 | ⟨h3, _⟩
      · exact absurd h3 (hn2 j)
      · rw [h1, h3]
  · rw [hl]; rw [he] at hx; exact h.ev x hx
  · rw [hs] at hx; cases hx

/-- A descriptor is opened and forgotten. -/
theorem Inv.leak {L : List Nat} {s t : St} {fd : Nat} (h : Inv L s) (hf : s.tab fd = none) (hb : t.bad = s.bad)
    (ht : t.tab = (setTab s fd (some .lib)).tab) (hl : t.lfd = s.lfd) (hc : t.conns = s.conns) (he : t.evl = s.evl)
    (hs : t.stopped = s.stopped) (hds : t.destroyed = s.destroyed) : Inv (L ++ [fd]) t := by
  have hn : ¬ s.tab fd = some .lib := by rw [hf]; simp
  rw [h.own] at hn
  have hlive : ∀ i d, LiveAt t i d ↔ LiveAt s i d := by intro i d; unfold LiveAt; rw [hc]
  refine ⟨by rw [hb, h.bad], fun d => ?_, fun d hd => ?_, fun i d hd => ?_, fun x hx => ?_, fun hx => ?_, by rw [hds, hs, hl]; exact h.ds⟩
  · rw [ht, hl]
    simp only [setTab, hlive]
    by_cases hd : d = fd
    · subst hd; simp
    · rw [if_neg hd, h.own]; simp [hd]
  · rw [hl] at hd
    refine ⟨fun i hi => (h.l1 d hd).1 i ((hlive i d).mp hi), ?_⟩
    simp only [List.mem_append, List.mem_singleton, not_or]
    exact ⟨(h.l1 d hd).2, fun e => hn (.inl (e ▸ hd))⟩
  · have hd := (hlive i d).mp hd
    refine ⟨?_, fun j hj => (h.l2 i d hd).2 j ((hlive j d).mp hj)⟩
    simp only [List.mem_append, List.mem_singleton, not_or]
    exact ⟨(h.l2 i d hd).1, fun e => hn (.inr (.inl ⟨i, e ▸ hd⟩))⟩
  · rw [hl]; rw [he] at hx; exact h.ev x hx
  · rw [hs] at hx
    exact fun i d hi => h.st hx i d ((hlive i d).mp hi)

/-- A connection leaves the pool and its descriptor is closed. -/
theorem Inv.del {L : List Nat} {s t : St} {c : Nat} {x y : Conn} (h : Inv L s) (hx : s.conns[c]? = some x) (hlive : x.term = false)
    (hy : y.term = true) (ht : t = close { s with conns := s.conns.set c y } x.fd) : Inv L t := by
  have hown : s.tab x.fd = some .lib := (h.own _).mpr (.inr (.inl ⟨c, x, hx, hlive, rfl⟩))
  have ht : t = setTab { s with conns := s.conns.set c y } x.fd none := by
    rw [ht]; unfold close; rw [if_pos hown]
  subst ht
  obtain ⟨h1, h2⟩ := h.l2 c x.fd ⟨x, hx, hlive, rfl⟩
  have hl : ∀ i d, LiveAt (setTab { s with conns := s.conns.set c y } x.fd none) i d ↔ LiveAt s i d ∧ d ≠ x.fd := by
    intro i d
    rw [live_set hx (s := setTab { s with conns := s.conns.set c y } x.fd none) rfl]
    simp only [hy]
    constructor
    · rintro (⟨h3, h4⟩ | ⟨_, h3, _⟩)
      · refine ⟨h4, fun e => h3 ?_⟩
        subst e
        exact h2 i h4
      · cases h3
    · rintro ⟨h3, h4⟩
      left
      refine ⟨fun e => ?_, h3⟩
      subst e
      obtain ⟨z, hz, _, hz2⟩ := h3
      rw [hx] at hz; cases hz
      exact h4 hz2.symm
  refine ⟨h.bad, fun d => ?_, fun d hd => ?_, fun i d hd => ?_, fun z hz => h.ev z hz, fun hs => ?_, h.ds⟩
  · simp only [hl]
    simp only [setTab]
    by_cases hd : d = x.fd
    · subst hd
      simp only [if_true]
      constructor
      · intro e; cases e
      · rintro (h3 | ⟨_, _, h3⟩ | h3)
        · exact absurd ⟨x, hx, hlive, rfl⟩ ((h.l1 _ h3).1 c)
        · exact absurd rfl h3
        · exact absurd h3 h1
    · rw [if_neg hd, h.own]; simp [hd]
  · exact ⟨fun i hi => (h.l1 d hd).1 i ((hl i d).mp hi).1, (h.l1 d hd).2⟩
  · have hd := ((hl i d).mp hd).1
    exact ⟨(h.l2 i d hd).1, fun j hj => (h.l2 i d hd).2 j ((hl j d).mp hj).1⟩
  · exact fun i d hi => h.st hs i d ((hl i d).mp hi).1

/-- The listening socket is closed. -/
theorem Inv.unlisten {L : List Nat} {s : St} (h : Inv L s) : Inv L { close? { s with evl := none } s.lfd with lfd := none } ∧
    (∀ fd, (s.tab fd = none ∨ s.lfd = some fd) → (close? { s with evl := none } s.lfd).tab fd = none) ∧
    (close? { s with evl := none } s.lfd).conns = s.conns ∧ (close? { s with evl := none } s.lfd).stopped = s.stopped ∧
    (close? { s with evl := none } s.lfd).out = s.out ∧ (close? { s with evl := none } s.lfd).calls = s.calls ∧
    (close? { s with evl := none } s.lfd).evl = none ∧ (close? { s with evl := none } s.lfd).bad = false ∧
    (close? { s with evl := none } s.lfd).destroyed = s.destroyed := by
  cases hl : s.lfd with
  | none =>
    refine ⟨?_, by simp [close?], rfl, rfl, rfl, rfl, rfl, h.bad, rfl⟩
    refine h.same rfl (fun _ => Iff.rfl) hl.symm (fun _ _ => Iff.rfl) (by simp [close?]) rfl rfl
  | some l =>
    have hown : s.tab l = some .lib := (h.own l).mpr (.inl hl)
    obtain ⟨h1, h2⟩ := h.l1 l hl
    have hc : close? { s with lfd := some l, evl := none } (some l) = setTab { s with lfd := some l, evl := none } l none := by
      show close _ l = _
      exact if_pos hown
    rw [hc]
    refine ⟨?_, ?_, rfl, rfl, rfl, rfl, rfl, h.bad, rfl⟩
    · have hlv : ∀ i d, LiveAt { setTab { s with lfd := some l, evl := none } l none with lfd := none } i d ↔ LiveAt s i d := fun _ _ => Iff.rfl
      refine ⟨h.bad, fun d => ?_, by simp, fun i d hd => ?_, by simp [setTab], fun hs i d hi => h.st hs i d hi,
        fun hd => ⟨(h.ds hd).1, rfl⟩⟩
      · simp only [setTab, hlv]
        by_cases hd : d = l
        · subst hd
          simp only [if_true]
          constructor
          · intro e; cases e
          · rintro (h3 | ⟨i, h3⟩ | h3)
            · cases h3
            · exact absurd h3 (h1 i)
            · exact absurd h3 h2
        · rw [if_neg hd, h.own, hl]
          constructor
          · rintro (g | g)
            · exact absurd (Option.some.inj g).symm hd
            · exact .inr g
          · rintro (g | g)
            · cases g
            · exact .inr g
      · exact h.l2 i d hd
    · intro fd hfd
      simp only [setTab]
      split
      · rfl
      · rename_i hne
        rcases hfd with hfd | hfd
        · exact hfd
        · cases hfd; exact absurd rfl hne

/-- A new listening socket. -/
theorem Inv.relisten {L : List Nat} {s t : St} {fd : Nat} (h : Inv L s) (hf : s.tab fd = none) (hl : s.lfd = none) (hb : t.bad = s.bad)
    (ht : t.tab = (setTab s fd (some .lib)).tab) (htl : t.lfd = some fd) (hc : t.conns = s.conns) (he : ∀ x, t.evl = some x → x.1 = fd)
    (hs : t.stopped = false) (hss : s.stopped = false) (hds : t.destroyed = s.destroyed) : Inv L t := by
  have hn : ¬ s.tab fd = some .lib := by rw [hf]; simp
  rw [h.own] at hn
  have hlive : ∀ i d, LiveAt t i d ↔ LiveAt s i d := by intro i d; unfold LiveAt; rw [hc]
  refine ⟨by rw [hb, h.bad], fun d => ?_, fun d hd => ?_, fun i d hd => ?_, fun x hx => ?_, fun hx => ?_,
    fun hx => by rw [hds] at hx; have := (h.ds hx).1; rw [hss] at this; cases this⟩
  · rw [ht, htl]
    simp only [setTab, hlive]
    by_cases hd : d = fd
    · subst hd; simp
    · rw [if_neg hd, h.own, hl]; simp [Ne.symm hd]
  · rw [htl] at hd; cases hd
    exact ⟨fun i hi => hn (.inr (.inl ⟨i, (hlive i _).mp hi⟩)), fun e => hn (.inr (.inr e))⟩
  · have hd := (hlive i d).mp hd
    exact ⟨(h.l2 i d hd).1, fun j hj => (h.l2 i d hd).2 j ((hlive j d).mp hj)⟩
  · rw [htl, he x hx]
  · rw [hs] at hx; cases hx

/-- Releasing all that is left. -/
theorem stopLoop_spec (l : List Conn) : ∀ s : St, s.bad = false →
    (∀ (i : Nat) x, l[i]? = some x → x.term = false → s.tab x.fd = some .lib ∧ ∀ (j : Nat) y, l[j]? = some y → y.term = false → y.fd = x.fd → j = i) →
    (stopLoop l s).bad = false ∧ (stopLoop l s).lfd = s.lfd ∧ (stopLoop l s).evl = s.evl ∧ (stopLoop l s).conns = s.conns ∧
    (stopLoop l s).out = s.out ∧ (stopLoop l s).calls = s.calls ∧ (stopLoop l s).stopped = s.stopped ∧
    (stopLoop l s).destroyed = s.destroyed ∧ ∀ fd, (stopLoop l s).tab fd = some .lib ↔ s.tab fd = some .lib ∧ ∀ x ∈ l, x.term = false → x.fd ≠ fd := by
  induction l with
  | nil => intro s hb _; exact ⟨hb, rfl, rfl, rfl, rfl, rfl, rfl, rfl, fun fd => by simp [stopLoop]⟩
  | cons x l ih =>
    intro s hb h
    unfold stopLoop
    have htl : ∀ (i : Nat) y, l[i]? = some y → y.term = false → s.tab y.fd = some .lib ∧ ∀ (j : Nat) z, l[j]? = some z → z.term = false → z.fd = y.fd → j = i := by
      intro i y hy ht
      obtain ⟨h1, h2⟩ := h (i + 1) y (by simpa using hy) ht
      exact ⟨h1, fun j z hz hzt hzf => by have := h2 (j + 1) z (by simpa using hz) hzt hzf; omega⟩
    by_cases ht : x.term = true
    · rw [if_pos ht]
      obtain ⟨h1, h2, h3, h4, h5, h6, h7, h9, h8⟩ := ih s hb htl
      refine ⟨h1, h2, h3, h4, h5, h6, h7, h9, fun fd => ?_⟩
      rw [h8]
      simp [ht]
    · rw [if_neg ht]
      have ht : x.term = false := by simpa using ht
      obtain ⟨g1, g2⟩ := h 0 x rfl ht
      have hc : close s x.fd = setTab s x.fd none := if_pos g1
      rw [hc]
      have hdist : ∀ (i : Nat) y, l[i]? = some y → y.term = false → y.fd ≠ x.fd := by
        intro i y hy hyt e
        have := g2 (i + 1) y (by simpa using hy) hyt e
        omega
      obtain ⟨h1, h2, h3, h4, h5, h6, h7, h9, h8⟩ := ih (setTab s x.fd none) hb (by
        intro i y hy hyt
        refine ⟨?_, (htl i y hy hyt).2⟩
        simp only [setTab]
        rw [if_neg (hdist i y hy hyt)]
        exact (htl i y hy hyt).1)
      refine ⟨h1, h2, h3, h4, h5, h6, h7, h9, fun fd => ?_⟩
      rw [h8]
      simp only [setTab]
      by_cases hf : fd = x.fd
      · subst hf
        simp [ht]
      · rw [if_neg hf]
        simp [ht, Ne.symm hf]

theorem Inv.stop {L : List Nat} {s : St} (h : Inv L s) : Inv L (stop s) := by
  obtain ⟨h1, h2, h3, h4, h5, h6, h7, h9, h8⟩ := stopLoop_spec s.conns s h.bad (by
    intro i x hx ht
    refine ⟨(h.own _).mpr (.inr (.inl ⟨i, x, hx, ht, rfl⟩)), fun j y hy hyt e => ?_⟩
    exact (h.l2 i x.fd ⟨x, hx, ht, rfl⟩).2 j ⟨y, hy, hyt, e⟩)
  unfold Sock.stop
  generalize stopLoop s.conns s = u at *
  simp only
  have hdead : ∀ (t : St), t.conns = u.conns.map (fun x => { x with term := true, polled := false, tasks := 0 }) → ∀ i d, ¬ LiveAt t i d := by
    rintro t ht i d ⟨x, hx, hxt, _⟩
    rw [ht, List.getElem?_map] at hx
    cases hu : u.conns[i]? with
    | none => rw [hu] at hx; cases hx
    | some y => rw [hu] at hx; cases hx; cases hxt
  have hL : ∀ d, u.tab d = some .lib ↔ s.lfd = some d ∨ d ∈ L := by
    intro d
    rw [h8, h.own]
    constructor
    · rintro ⟨g1 | ⟨i, x, hx, hxt, hxf⟩ | g1, g2⟩
      · exact .inl g1
      · exact absurd hxf (g2 x (List.mem_of_getElem? hx) hxt)
      · exact .inr g1
    · intro g
      refine ⟨by rcases g with g | g; exact .inl g; exact .inr (.inr g), fun x hx hxt e => ?_⟩
      obtain ⟨i, hi⟩ := List.getElem?_of_mem hx
      have hlv : LiveAt s i d := ⟨x, hi, hxt, e⟩
      rcases g with g | g
      · exact (h.l1 d g).1 i hlv
      · exact (h.l2 i d hlv).1 g
  refine ⟨h1, fun d => ?_, fun d hd => ⟨fun i => hdead _ rfl i d, ?_⟩, fun i d hd => absurd hd (hdead _ rfl i d), by simp, fun _ => hdead _ rfl, fun hd => ⟨rfl, ?_⟩⟩
  · show u.tab d = some .lib ↔ (u.lfd = some d ∨ _)
    rw [hL, h2]
    constructor
    · rintro (g | g)
      · exact .inl g
      · exact .inr (.inr g)
    · rintro (g | ⟨i, g⟩ | g)
      · exact .inl g
      · exact absurd g (hdead _ rfl i d)
      · exact .inr g
  · exact (h.l1 d (h2 ▸ hd)).2
  · rw [show _ = _ from h9] at hd
    exact h2.trans (h.ds hd).2

theorem Inv.destroy {L : List Nat} {s : St} (h : Inv L s) : Inv L (destroy s) := by
  unfold Sock.destroy
  have h' : Inv L (if s.stopped then s else Sock.stop s) ∧ (if s.stopped then s else Sock.stop s).stopped = true := by
    split
    · rename_i hs; exact ⟨h, hs⟩
    · exact ⟨h.stop, rfl⟩
  generalize (if s.stopped then s else Sock.stop s) = u at *
  obtain ⟨h1, _, h3, h4, _⟩ := h'.1.unlisten
  refine ⟨h1.bad, h1.own, h1.l1, h1.l2, h1.ev, h1.st, fun _ => ⟨?_, rfl⟩⟩
  exact h4.trans h'.2

theorem leaks_cons (a : Act) (as : List Act) : leaks (a :: as) = leaks [a] ++ leaks as := by
  cases a <;> try rfl
  all_goals
    rename_i fd f
    rcases f with _ | f
    · rfl
    · cases f <;> rfl

theorem Inv.connect {L : List Nat} {s : St} {call : Option Nat} {fd : Nat} {fail : Option Fail} (h : Inv L s) (hf : s.tab fd = none)
    (hs : s.stopped = false) : Inv (L ++ leaks [.connectSync fd fail]) (Sock.connect s call fd fail) := by
  rcases fail with _ | f
  · simp only [leaks, List.append_nil]
    exact h.add (y := ⟨fd, call, true, false, false, 0⟩) hf rfl rfl rfl rfl rfl rfl rfl hs rfl hs
  · cases f
    · simp only [leaks, List.append_nil]
      cases call <;> exact h.same rfl (fun _ => Iff.rfl) rfl (fun _ _ => Iff.rfl) (fun _ hx => hx) rfl rfl
    · cases call <;> exact h.leak hf rfl rfl rfl rfl rfl rfl rfl
    · simp only [leaks, List.append_nil]
      exact h.add (y := ⟨fd, call, false, false, false, 1⟩) hf rfl rfl rfl rfl rfl rfl rfl hs rfl hs

theorem Inv.step {L : List Nat} {s t : St} {a : Act} (h : Inv L s) (ha : step s a = some t) : Inv (L ++ leaks [a]) t := by
  cases a with
  | appOpen fd =>
    simp only [Sock.step] at ha
    split at ha <;> cases ha
    rename_i hn
    simp only [leaks, List.append_nil]
    refine h.same rfl (fun d => ?_) rfl (fun _ _ => Iff.rfl) (fun _ hx => hx) rfl rfl
    simp only [setTab]
    split
    · rename_i e; subst e; simp [hn]
    · rfl
  | appClose fd =>
    simp only [Sock.step] at ha
    split at ha <;> cases ha
    rename_i hn
    simp only [leaks, List.append_nil]
    refine h.same rfl (fun d => ?_) rfl (fun _ _ => Iff.rfl) (fun _ hx => hx) rfl rfl
    simp only [setTab]
    split
    · rename_i e; subst e; simp [hn]
    · rfl
  | listen fd port fail =>
    simp only [Sock.step] at ha
    split at ha <;> cases ha
    rename_i hn
    simp only [Bool.and_eq_true, Bool.not_eq_true', Bool.or_eq_true, decide_eq_true_eq] at hn
    obtain ⟨h1, h2, h3, h4, h5, h6, h7, h8, h9⟩ := h.unlisten
    have h2 := h2 fd hn.2
    simp only [leaks, List.append_nil]
    unfold Sock.listen
    generalize close? { s with evl := none } s.lfd = u at *
    rcases fail with _ | f
    · exact h1.relisten (t := { setTab u fd (some .lib) with lfd := some fd, evl := some (fd, port) }) h2 rfl rfl rfl rfl rfl
        (by intro x hx; cases hx; rfl) (h4.trans hn.1) (h4.trans hn.1) rfl
    · cases f
      · exact h1.same rfl (fun _ => Iff.rfl) rfl (fun _ _ => Iff.rfl) (fun _ hx => hx) rfl rfl
      · exact h1.relisten (t := say { setTab u fd (some .lib) with lfd := some fd } .threw) h2 rfl rfl rfl rfl rfl
          (by intro x hx; rw [show (say { setTab u fd (some .lib) with lfd := some fd } .threw).evl = u.evl from rfl, h7] at hx; cases hx) (h4.trans hn.1) (h4.trans hn.1) rfl
      · exact h1.relisten (t := say { setTab u fd (some .lib) with lfd := some fd } .threw) h2 rfl rfl rfl rfl rfl
          (by intro x hx; rw [show (say { setTab u fd (some .lib) with lfd := some fd } .threw).evl = u.evl from rfl, h7] at hx; cases hx) (h4.trans hn.1) (h4.trans hn.1) rfl
  | connect fd fail =>
    simp only [Sock.step] at ha
    split at ha <;> cases ha
    rename_i hn
    simp only [Bool.and_eq_true, Bool.not_eq_true', decide_eq_true_eq] at hn
    have h' : Inv L { s with calls := s.calls + 1 } := h.same rfl (fun _ => Iff.rfl) rfl (fun _ _ => Iff.rfl) (fun _ hx => hx) rfl rfl
    have := h'.connect (call := some s.calls) (fd := fd) (fail := fail) hn.2 hn.1
    rwa [show leaks [.connect fd fail] = leaks [.connectSync fd fail] from by
      rcases fail with _ | f
      · rfl
      · cases f <;> rfl]
  | connectSync fd fail =>
    simp only [Sock.step] at ha
    split at ha <;> cases ha
    rename_i hn
    simp only [Bool.and_eq_true, Bool.not_eq_true', decide_eq_true_eq] at hn
    exact h.connect hn.2 hn.1
  | accept fd fail =>
    simp only [Sock.step] at ha
    split at ha <;> cases ha
    rename_i hn
    simp only [Bool.and_eq_true, Bool.not_eq_true', decide_eq_true_eq] at hn
    rcases fail with _ | f
    · simp only [leaks, List.append_nil]
      exact h.add (y := ⟨fd, none, false, true, false, 0⟩) hn.2 rfl rfl rfl rfl rfl rfl rfl hn.1.1 rfl hn.1.1
    · cases f
      · simp only [leaks, List.append_nil]
        exact h.same rfl (fun _ => Iff.rfl) rfl (fun _ _ => Iff.rfl) (fun x hx => by cases hx) rfl rfl
      · exact h.leak hn.2 rfl rfl rfl rfl rfl rfl rfl
      · exact h.leak hn.2 rfl rfl rfl rfl rfl rfl rfl
  | connReady c =>
    simp only [Sock.step] at ha
    split at ha <;> try cases ha
    rename_i x hx
    split at ha <;> cases ha
    simp only [leaks, List.append_nil]
    refine h.same rfl (fun _ => Iff.rfl) rfl (fun i d => ?_) (fun _ hx => hx) rfl rfl
    exact live_same hx rfl rfl rfl
  | connFail c timeout =>
    simp only [Sock.step] at ha
    split at ha <;> try cases ha
    rename_i x hx
    split at ha <;> cases ha
    simp only [leaks, List.append_nil]
    refine h.same rfl (fun _ => Iff.rfl) rfl (fun i d => ?_) (fun _ hx => hx) rfl rfl
    exact live_same hx rfl rfl rfl
  | terminate c =>
    simp only [Sock.step] at ha
    split at ha <;> try cases ha
    rename_i x hx
    split at ha <;> cases ha
    simp only [leaks, List.append_nil]
    refine h.same rfl (fun _ => Iff.rfl) rfl (fun i d => ?_) (fun _ hx => hx) rfl rfl
    exact live_same hx rfl rfl rfl
  | run c =>
    simp only [Sock.step] at ha
    split at ha <;> try cases ha
    rename_i x hx
    split at ha <;> cases ha
    simp only [leaks, List.append_nil]
    split
    · refine h.same rfl (fun _ => Iff.rfl) rfl (fun i d => ?_) (fun _ hx => hx) rfl rfl
      exact live_same hx rfl rfl rfl
    · rename_i ht
      have ht : x.term = false := by simpa using ht
      have := h.del (t := close { s with conns := s.conns.set c { x with tasks := x.tasks - 1, term := true, polled := false } } x.fd)
        (y := { x with tasks := x.tasks - 1, term := true, polled := false }) hx ht rfl rfl
      exact this.same rfl (fun _ => Iff.rfl) rfl (fun _ _ => Iff.rfl) (fun _ hx => hx) rfl rfl
  | stop =>
    simp only [Sock.step] at ha
    split at ha <;> cases ha
    simp only [leaks, List.append_nil]
    exact h.stop
  | destroy =>
    simp only [Sock.step] at ha
    split at ha <;> cases ha
    simp only [leaks, List.append_nil]
    exact h.destroy

theorem Inv.run {as : List Act} : ∀ {L : List Nat} {s t : St}, Inv L s → run s as = some t → Inv (L ++ leaks as) t := by
  induction as with
  | nil => intro L s t h hr; cases hr; simpa [leaks] using h
  | cons a as ih =>
    intro L s t h hr
    obtain ⟨u, hu, hr⟩ := Option.bind_eq_some_iff.mp hr
    have := ih (h.step hu) hr
    rwa [List.append_assoc, ← leaks_cons] at this

/-! ### Reports -/

structure Rep (fs : List (Option Fail)) (n : Nat) (p : Option Nat) (s : St) : Prop where
  calls : s.calls = fs.length
  err : ∀ k : Nat, s.out.count (.err k) = if early fs[k]? then 1 else 0
  conn : ∀ k : Nat, s.conns.countP (fun x => x.call = some k) = if late fs[k]? then 1 else 0
  anon : s.out.count (.err (-1)) = n
  port : s.evl.map (·.2) = p
  gone : s.stopped = false → ∀ c, s.out.count (.gone c) = if (s.conns[c]?.any (·.term)) then 1 else 0
  once : ∀ c, s.out.count (.gone c) ≤ 1
  prog : ∀ x ∈ s.conns, x.polled = true ∨ x.fed = true ∨ 0 < x.tasks ∨ x.term = true
  stop : s.stopped = true → ∀ x ∈ s.conns, x.polled = false ∧ x.tasks = 0 ∧ x.term = true

theorem rep_init : Rep [] 0 none init := by
  refine ⟨rfl, ?_, ?_, rfl, rfl, ?_, ?_, ?_, ?_⟩ <;> simp [init, early, late]

theorem close_out (s : St) (fd : Nat) : (close s fd).out = s.out ∧ (close s fd).conns = s.conns ∧ (close s fd).calls = s.calls ∧
    (close s fd).evl = s.evl ∧ (close s fd).stopped = s.stopped := by
  unfold close
  split <;> exact ⟨rfl, rfl, rfl, rfl, rfl⟩

theorem close?_out (s : St) (o : Option Nat) : (close? s o).out = s.out ∧ (close? s o).conns = s.conns ∧ (close? s o).calls = s.calls ∧
    (close? s o).evl = s.evl ∧ (close? s o).stopped = s.stopped := by
  cases o
  · exact ⟨rfl, rfl, rfl, rfl, rfl⟩
  · exact close_out _ _

theorem stopLoop_out (l : List Conn) : ∀ s : St, (stopLoop l s).out = s.out ∧ (stopLoop l s).conns = s.conns ∧ (stopLoop l s).calls = s.calls := by
  induction l with
  | nil => intro s; exact ⟨rfl, rfl, rfl⟩
  | cons x l ih =>
    intro s
    unfold stopLoop
    obtain ⟨h1, h2, h3⟩ := ih (if x.term then s else close s x.fd)
    rw [h1, h2, h3]
    split
    · exact ⟨rfl, rfl, rfl⟩
    · exact ⟨(close_out _ _).1, (close_out _ _).2.1, (close_out _ _).2.2.1⟩

theorem countP_set_same {P : Conn → Bool} {x y : Conn} (hP : P y = P x) : ∀ {l : List Conn} {c : Nat}, l[c]? = some x → (l.set c y).countP P = l.countP P
  | [], c, h => by simp at h
  | z :: l, 0, h => by simp at h; subst h; simp [List.countP_cons, hP]
  | z :: l, c + 1, h => by simp at h; simp [List.countP_cons, countP_set_same hP h]

theorem any_set {P : Conn → Bool} {x y : Conn} {l : List Conn} {c : Nat} (h : l[c]? = some x) (i : Nat) :
    (l.set c y)[i]?.any P = if i = c then P y else l[i]?.any P := by
  have hlt : c < l.length := (List.getElem?_eq_some_iff.mp h).1
  by_cases e : i = c
  · subst e; simp [List.getElem?_set_self hlt]
  · rw [List.getElem?_set_ne (Ne.symm e), if_neg e]

/-- One connection changes, but for its life and the call it is of. -/
theorem Rep.upd {fs : List (Option Fail)} {n : Nat} {p : Option Nat} {s t : St} {c : Nat} {x y : Conn} (h : Rep fs n p s) (hx : s.conns[c]? = some x)
    (hc : y.call = x.call) (ht : y.term = x.term) (hp : y.polled = true ∨ y.fed = true ∨ 0 < y.tasks ∨ y.term = true)
    (hs : s.stopped = true → y.polled = false ∧ y.tasks = 0) (e1 : t.conns = s.conns.set c y)
    (e2 : t.out = s.out) (e3 : t.calls = s.calls) (e4 : t.evl = s.evl) (e5 : t.stopped = s.stopped) : Rep fs n p t := by
  refine ⟨e3 ▸ h.calls, e2 ▸ h.err, fun k => ?_, e2 ▸ h.anon, e4 ▸ h.port, fun hst i => ?_, e2 ▸ h.once, fun z hz => ?_, fun hst z hz => ?_⟩
  · rw [e1, countP_set_same (by simp [hc]) hx]; exact h.conn k
  · rw [e2, e1, any_set hx, h.gone (e5 ▸ hst)]
    by_cases e : i = c
    · subst e; simp [hx, ht]
    · simp [e]
  · rw [e1] at hz
    rcases List.mem_or_eq_of_mem_set hz with hz | hz
    · exact h.prog z hz
    · subst hz; exact hp
  · rw [e5] at hst
    rw [e1] at hz
    rcases List.mem_or_eq_of_mem_set hz with hz | hz
    · exact h.stop hst z hz
    · subst hz
      exact ⟨(hs hst).1, (hs hst).2, ht ▸ (h.stop hst x (List.mem_of_getElem? hx)).2.2⟩

/-- Something is said that is not about a connection that is gone. -/
theorem Rep.say {fs : List (Option Fail)} {n : Nat} {p : Option Nat} {s : St} (h : Rep fs n p s) : Rep fs (n + 1) p (Sock.say s (.err (-1))) := by
  refine ⟨h.calls, fun k => ?_, h.conn, ?_, h.port, fun hst i => ?_, fun i => ?_, h.prog, h.stop⟩
  · show (s.out ++ [_]).count _ = _
    rw [List.count_append, h.err]
    have : (-1 : Int) ≠ (k : Int) := by omega
    simp [List.count_cons, this]
  · show (s.out ++ [_]).count _ = _
    rw [List.count_append, h.anon]; simp
  · show (s.out ++ [_]).count _ = _
    rw [List.count_append, h.gone hst]
    simp only [List.count_cons, List.count_nil]
    rfl
  · show (s.out ++ [_]).count _ ≤ _
    rw [List.count_append]
    simpa [List.count_cons] using h.once i

theorem Rep.threw {fs : List (Option Fail)} {n : Nat} {p : Option Nat} {s : St} (h : Rep fs n p s) : Rep fs n p (Sock.say s .threw) := by
  refine ⟨h.calls, fun k => ?_, h.conn, ?_, h.port, fun hst i => ?_, fun i => ?_, h.prog, h.stop⟩
  · show (s.out ++ [_]).count _ = _
    rw [List.count_append, h.err]
    simp [List.count_cons]
  · show (s.out ++ [_]).count _ = _
    rw [List.count_append, h.anon]; simp [List.count_cons]
  · show (s.out ++ [_]).count _ = _
    rw [List.count_append, h.gone hst]
    simp only [List.count_cons, List.count_nil]
    rfl
  · show (s.out ++ [_]).count _ ≤ _
    rw [List.count_append]
    simpa [List.count_cons] using h.once i

/-- Only descriptors change. -/
theorem Rep.same {fs : List (Option Fail)} {n : Nat} {p q : Option Nat} {s t : St} (h : Rep fs n p s) (e1 : t.conns = s.conns) (e2 : t.out = s.out)
    (e3 : t.calls = s.calls) (e4 : t.evl.map (·.2) = q) (e5 : t.stopped = s.stopped) : Rep fs n q t :=
  ⟨e3 ▸ h.calls, e2 ▸ h.err, e1 ▸ h.conn, e2 ▸ h.anon, e4, by rw [e5, e2, e1]; exact h.gone, e2 ▸ h.once, e1 ▸ h.prog, by rw [e5, e1]; exact h.stop⟩

/-- A connection that is not of a call of connect(). -/
theorem Rep.add {fs : List (Option Fail)} {n : Nat} {p : Option Nat} {s t : St} {y : Conn} (h : Rep fs n p s) (hst : s.stopped = false)
    (hc : y.call = none) (hy : y.term = false) (hp : y.polled = true ∨ y.fed = true ∨ 0 < y.tasks) (e1 : t.conns = s.conns ++ [y]) (e2 : t.out = s.out)
    (e3 : t.calls = s.calls) (e4 : t.evl = s.evl) (e5 : t.stopped = s.stopped) : Rep fs n p t := by
  refine ⟨e3 ▸ h.calls, e2 ▸ h.err, fun k => ?_, e2 ▸ h.anon, e4 ▸ h.port, fun _ i => ?_, e2 ▸ h.once, fun z hz => ?_, fun hs => ?_⟩
  · rw [e1, List.countP_append, h.conn]; simp [hc]
  · rw [e2, e1, h.gone hst, List.getElem?_append]
    by_cases hi : i < s.conns.length
    · simp [hi]
    · have : s.conns[i]? = none := by simp; omega
      rw [if_neg hi, this]
      rcases hj : i - s.conns.length with _ | j <;> simp [hy]
  · rw [e1, List.mem_append, List.mem_singleton] at hz
    rcases hz with hz | hz
    · exact h.prog z hz
    · subst hz; rcases hp with hp | hp | hp
      · exact .inl hp
      · exact .inr (.inl hp)
      · exact .inr (.inr (.inl hp))
  · rw [e5, hst] at hs; cases hs

theorem getElem?_snoc {α : Type} (l : List α) (f : α) (k : Nat) : (l ++ [f])[k]? = if k = l.length then some f else l[k]? := by
  rw [List.getElem?_append]
  by_cases h : k < l.length
  · rw [if_pos h, if_neg (by omega)]
  · rw [if_neg h]
    by_cases h2 : k = l.length
    · subst h2; simp
    · have h3 : l[k]? = none := by simp; omega
      rw [if_neg h2, h3]
      rcases hj : k - l.length with _ | j
      · omega
      · rfl

/-- connect() fails early. -/
theorem Rep.early {fs : List (Option Fail)} {n : Nat} {p : Option Nat} {s t : St} {f : Option Fail} (h : Rep fs n p s) (hf : early (some f) = true)
    (e1 : t.conns = s.conns) (e2 : t.out = s.out ++ [.err fs.length]) (e3 : t.calls = s.calls + 1) (e4 : t.evl = s.evl) (e5 : t.stopped = s.stopped) :
    Rep (fs ++ [f]) n p t := by
  have hl : late (some f) = false := by
    rcases f with _ | f
    · cases hf
    · cases f <;> first | rfl | cases hf
  have h0 : fs[fs.length]? = none := by simp
  refine ⟨by rw [e3, h.calls]; simp, fun k => ?_, fun k => ?_, ?_, e4 ▸ h.port, fun hs i => ?_, fun i => ?_, e1 ▸ h.prog, by rw [e5, e1]; exact h.stop⟩
  · rw [e2, List.count_append, h.err, getElem?_snoc]
    by_cases hk : k = fs.length
    · subst hk; rw [h0, if_pos rfl, hf]; simp [Spec.Sock.early]
    · rw [if_neg hk]
      have : (fs.length : Int) ≠ (k : Int) := by omega
      simp [List.count_cons, this]
  · rw [e1, h.conn, getElem?_snoc]
    by_cases hk : k = fs.length
    · subst hk; rw [h0, if_pos rfl, hl]; simp [late]
    · rw [if_neg hk]
  · rw [e2, List.count_append, h.anon]
    have : (fs.length : Int) ≠ (-1 : Int) := by omega
    simp [List.count_cons, this]
  · rw [e2, e1, List.count_append, h.gone (e5 ▸ hs)]
    simp [List.count_cons]
  · rw [e2, List.count_append]
    simpa [List.count_cons] using h.once i

/-- connect() makes a connection. -/
theorem Rep.late {fs : List (Option Fail)} {n : Nat} {p : Option Nat} {s t : St} {f : Option Fail} {y : Conn} (h : Rep fs n p s) (hst : s.stopped = false)
    (hf : late (some f) = true) (hc : y.call = some fs.length) (hy : y.term = false) (hp : y.polled = true ∨ y.fed = true ∨ 0 < y.tasks)
    (e1 : t.conns = s.conns ++ [y]) (e2 : t.out = s.out) (e3 : t.calls = s.calls + 1) (e4 : t.evl = s.evl) (e5 : t.stopped = s.stopped) :
    Rep (fs ++ [f]) n p t := by
  have hl : Spec.Sock.early (some f) = false := by
    rcases f with _ | f
    · rfl
    · cases f <;> first | rfl | cases hf
  have h0 : fs[fs.length]? = none := by simp
  refine ⟨by rw [e3, h.calls]; simp, fun k => ?_, fun k => ?_, e2 ▸ h.anon, e4 ▸ h.port, fun _ i => ?_, e2 ▸ h.once, fun z hz => ?_, fun hs => ?_⟩
  · rw [e2, h.err, getElem?_snoc]
    by_cases hk : k = fs.length
    · subst hk; rw [h0, if_pos rfl, hl]; simp [Spec.Sock.early]
    · rw [if_neg hk]
  · rw [e1, List.countP_append, h.conn, getElem?_snoc]
    by_cases hk : k = fs.length
    · subst hk; rw [h0, if_pos rfl, hf]; simp [hc, Spec.Sock.late]
    · rw [if_neg hk]
      simp [hc, Ne.symm hk]
  · rw [e2, e1, h.gone hst, List.getElem?_append]
    by_cases hi : i < s.conns.length
    · simp [hi]
    · have : s.conns[i]? = none := by simp; omega
      rw [if_neg hi, this]
      rcases hj : i - s.conns.length with _ | j <;> simp [hy]
  · rw [e1, List.mem_append, List.mem_singleton] at hz
    rcases hz with hz | hz
    · exact h.prog z hz
    · subst hz; rcases hp with hp | hp | hp
      · exact .inl hp
      · exact .inr (.inl hp)
      · exact .inr (.inr (.inl hp))
  · rw [e5, hst] at hs; cases hs

/-- A connection leaves the pool. -/
theorem Rep.del {fs : List (Option Fail)} {n : Nat} {p : Option Nat} {s t : St} {c : Nat} {x y : Conn} (h : Rep fs n p s) (hx : s.conns[c]? = some x)
    (hl : x.term = false) (hy : y.term = true) (hc : y.call = x.call) (e1 : t.conns = s.conns.set c y) (e2 : t.out = s.out ++ [.gone c])
    (e3 : t.calls = s.calls) (e4 : t.evl = s.evl) (e5 : t.stopped = s.stopped) : Rep fs n p t := by
  have hst : s.stopped = false := by
    cases hs : s.stopped with
    | false => rfl
    | true => have := (h.stop hs x (List.mem_of_getElem? hx)).2.2; rw [hl] at this; cases this
  have hg : ∀ i, t.out.count (.gone i) = if (t.conns[i]?.any (·.term)) then 1 else 0 := by
    intro i
    rw [e2, e1, any_set hx, List.count_append, h.gone hst]
    by_cases e : i = c
    · subst e; simp [hx, hl, hy]
    · simp [e, List.count_cons, Ne.symm e]
  refine ⟨e3 ▸ h.calls, fun k => ?_, fun k => ?_, ?_, e4 ▸ h.port, fun _ => hg, fun i => ?_, fun z hz => ?_, fun hs => ?_⟩
  · rw [e2, List.count_append, h.err]; simp [List.count_cons]
  · rw [e1, countP_set_same (by simp [hc]) hx]; exact h.conn k
  · rw [e2, List.count_append, h.anon]; simp [List.count_cons]
  · rw [hg]; split <;> omega
  · rw [e1] at hz
    rcases List.mem_or_eq_of_mem_set hz with hz | hz
    · exact h.prog z hz
    · subst hz; exact .inr (.inr (.inr hy))
  · rw [e5, hst] at hs; cases hs

theorem Rep.stopped {fs : List (Option Fail)} {n : Nat} {p : Option Nat} {s : St} (h : Rep fs n p s) : Rep fs n none (Sock.stop s) := by
  obtain ⟨h1, h2, h3⟩ := stopLoop_out s.conns s
  unfold Sock.stop
  generalize stopLoop s.conns s = u at *
  have e1 : (u.conns.map fun x => { x with term := true, polled := false, tasks := 0 }) =
    s.conns.map fun x => { x with term := true, polled := false, tasks := 0 } := by rw [h2]
  refine ⟨h3.trans h.calls, fun k => ?_, fun k => ?_, ?_, rfl, by simp, fun c => ?_, fun z hz => ?_, fun _ z hz => ?_⟩
  · show u.out.count _ = _; rw [h1]; exact h.err k
  · show (u.conns.map _).countP _ = _
    rw [e1, List.countP_map]
    exact h.conn k
  · show u.out.count _ = _; rw [h1]; exact h.anon
  · show u.out.count _ ≤ _; rw [h1]; exact h.once c
  · obtain ⟨x, _, hx⟩ := List.mem_map.mp hz
    subst hx; exact .inr (.inr (.inr rfl))
  · obtain ⟨x, _, hx⟩ := List.mem_map.mp hz
    subst hx; exact ⟨rfl, rfl, rfl⟩

theorem Rep.step {fs : List (Option Fail)} {n : Nat} {p : Option Nat} {s t : St} {a : Act} (h : Rep fs n p s) (ha : step s a = some t) :
    Rep (fs ++ connects [a]) (n + if anonymous a then 1 else 0) (listening.port p a) t := by
  cases a with
  | appOpen fd =>
    simp only [Sock.step] at ha
    split at ha <;> cases ha
    simp only [connects, List.filterMap_cons, List.filterMap_nil, List.append_nil]
    exact h.same rfl rfl rfl h.port rfl
  | appClose fd =>
    simp only [Sock.step] at ha
    split at ha <;> cases ha
    simp only [connects, List.filterMap_cons, List.filterMap_nil, List.append_nil]
    exact h.same rfl rfl rfl h.port rfl
  | listen fd port fail =>
    simp only [Sock.step] at ha
    split at ha <;> cases ha
    simp only [connects, List.filterMap_cons, List.filterMap_nil, List.append_nil]
    obtain ⟨h1, h2, h3, h4, h5⟩ := close?_out { s with evl := none } s.lfd
    unfold Sock.listen
    generalize close? { s with evl := none } s.lfd = u at *
    have hu : Rep fs n none u := h.same h2 h1 h3 (by rw [h4]; rfl) h5
    rcases fail with _ | f
    · exact hu.same rfl rfl rfl rfl rfl
    · cases f
      · exact (hu.same (t := { u with lfd := none }) rfl rfl rfl hu.port rfl).threw
      · exact (hu.same (t := { setTab u fd (some .lib) with lfd := some fd }) rfl rfl rfl hu.port rfl).threw
      · exact (hu.same (t := { setTab u fd (some .lib) with lfd := some fd }) rfl rfl rfl hu.port rfl).threw
  | connect fd fail =>
    simp only [Sock.step] at ha
    split at ha <;> cases ha
    rename_i hn
    simp only [Bool.and_eq_true, Bool.not_eq_true', decide_eq_true_eq] at hn
    simp only [connects, List.filterMap_cons, List.filterMap_nil]
    rcases fail with _ | f
    · exact h.late (y := ⟨fd, some s.calls, true, false, false, 0⟩) hn.1 rfl (by rw [h.calls]) rfl (.inl rfl) rfl rfl rfl rfl rfl
    · cases f
      · exact h.early rfl rfl (by rw [← h.calls]; rfl) rfl rfl rfl
      · exact h.early rfl rfl (by rw [← h.calls]; rfl) rfl rfl rfl
      · exact h.late (y := ⟨fd, some s.calls, false, false, false, 1⟩) hn.1 rfl (by rw [h.calls]) rfl (.inr (.inr (by simp))) rfl rfl rfl rfl rfl
  | connectSync fd fail =>
    simp only [Sock.step] at ha
    split at ha <;> cases ha
    rename_i hn
    simp only [Bool.and_eq_true, Bool.not_eq_true', decide_eq_true_eq] at hn
    simp only [connects, List.filterMap_cons, List.filterMap_nil, List.append_nil]
    rcases fail with _ | f
    · exact h.add (y := ⟨fd, none, true, false, false, 0⟩) hn.1 rfl rfl (.inl rfl) rfl rfl rfl rfl rfl
    · cases f
      · exact h.threw
      · exact (h.same (t := setTab s fd (some .lib)) rfl rfl rfl h.port rfl).threw
      · exact h.add (y := ⟨fd, none, false, false, false, 1⟩) hn.1 rfl rfl (.inr (.inr (by simp))) rfl rfl rfl rfl rfl
  | accept fd fail =>
    simp only [Sock.step] at ha
    split at ha <;> cases ha
    rename_i hn
    simp only [Bool.and_eq_true, Bool.not_eq_true', decide_eq_true_eq] at hn
    simp only [connects, List.filterMap_cons, List.filterMap_nil, List.append_nil]
    rcases fail with _ | f
    · exact h.add (y := ⟨fd, none, false, true, false, 0⟩) hn.1.1 rfl rfl (.inr (.inl rfl)) rfl rfl rfl rfl rfl
    · cases f
      · exact (h.same (t := { s with evl := none }) rfl rfl rfl rfl rfl).say
      · exact (h.same (t := setTab s fd (some .lib)) rfl rfl rfl h.port rfl).say
      · exact (h.same (t := setTab s fd (some .lib)) rfl rfl rfl h.port rfl).say
  | connReady c =>
    simp only [Sock.step] at ha
    split at ha <;> try cases ha
    rename_i x hx
    split at ha <;> cases ha
    rename_i hpol
    simp only [connects, List.filterMap_cons, List.filterMap_nil, List.append_nil]
    refine h.upd hx (y := { x with polled := false, fed := true }) rfl rfl (.inr (.inl rfl)) (fun hs => ?_) rfl rfl rfl rfl rfl
    exact ⟨rfl, (h.stop hs x (List.mem_of_getElem? hx)).2.1⟩
  | connFail c timeout =>
    simp only [Sock.step] at ha
    split at ha <;> try cases ha
    rename_i x hx
    split at ha <;> cases ha
    rename_i hpol
    simp only [connects, List.filterMap_cons, List.filterMap_nil, List.append_nil]
    refine (h.upd (t := { s with conns := s.conns.set c { x with polled := !timeout, tasks := x.tasks + 1 } }) hx
      (y := { x with polled := !timeout, tasks := x.tasks + 1 }) rfl rfl (.inr (.inr (.inl (by simp)))) (fun hs => ?_) rfl rfl rfl rfl rfl).say
    rw [(h.stop hs x (List.mem_of_getElem? hx)).1] at hpol; cases hpol
  | terminate c =>
    simp only [Sock.step] at ha
    split at ha <;> try cases ha
    rename_i x hx
    split at ha <;> cases ha
    rename_i hst
    simp only [connects, List.filterMap_cons, List.filterMap_nil, List.append_nil]
    exact h.upd hx (y := { x with tasks := x.tasks + 1 }) rfl rfl (.inr (.inr (.inl (by simp)))) (fun hs => absurd hs hst) rfl rfl rfl rfl rfl
  | run c =>
    simp only [Sock.step] at ha
    split at ha <;> try cases ha
    rename_i x hx
    split at ha <;> cases ha
    rename_i h0
    simp only [connects, List.filterMap_cons, List.filterMap_nil, List.append_nil]
    have hst : s.stopped = true → False := fun hs => h0 (h.stop hs x (List.mem_of_getElem? hx)).2.1
    show Rep fs n p _
    split
    · rename_i ht
      exact h.upd hx (y := { x with tasks := x.tasks - 1 }) rfl rfl (.inr (.inr (.inr ht))) (fun hs => (hst hs).elim) rfl rfl rfl rfl rfl
    · rename_i ht
      have ht : x.term = false := by simpa using ht
      obtain ⟨h1, h2, h3, h4, h5⟩ := close_out { s with conns := s.conns.set c { x with tasks := x.tasks - 1, term := true, polled := false } } x.fd
      refine h.del hx (y := { x with tasks := x.tasks - 1, term := true, polled := false }) ht rfl rfl h2 ?_ h3 h4 h5
      exact congrArg (· ++ [Out.gone c]) h1
  | stop =>
    simp only [Sock.step] at ha
    split at ha <;> cases ha
    simp only [connects, List.filterMap_cons, List.filterMap_nil, List.append_nil]
    exact h.stopped
  | destroy =>
    simp only [Sock.step] at ha
    split at ha <;> cases ha
    simp only [connects, List.filterMap_cons, List.filterMap_nil, List.append_nil]
    unfold Sock.destroy
    have hu : ∃ p, Rep fs n p (if s.stopped then s else Sock.stop s) := by
      split
      · exact ⟨_, h⟩
      · exact ⟨_, h.stopped⟩
    generalize (if s.stopped then s else Sock.stop s) = u at *
    obtain ⟨q, hu⟩ := hu
    obtain ⟨h1, h2, h3, h4, h5⟩ := close?_out { u with evl := none } u.lfd
    exact hu.same h2 h1 h3 (by rw [show _ = _ from h4]; rfl) h5

theorem Rep.run {as : List Act} : ∀ {fs : List (Option Fail)} {n : Nat} {p : Option Nat} {s t : St}, Rep fs n p s → run s as = some t →
    Rep (fs ++ connects as) (n + as.countP anonymous) (as.foldl listening.port p) t := by
  induction as with
  | nil => intro fs n p s t h hr; cases hr; simpa [connects] using h
  | cons a as ih =>
    intro fs n p s t h hr
    obtain ⟨u, hu, hr⟩ := Option.bind_eq_some_iff.mp hr
    have := ih (h.step hu) hr
    rw [List.append_assoc, Nat.add_assoc] at this
    have e1 : connects (a :: as) = connects [a] ++ connects as := by
      unfold connects; rw [← List.filterMap_append]; rfl
    rw [e1, List.countP_cons, Nat.add_comm (as.countP anonymous)]
    exact this

/-! ### Descriptors of the application -/

theorem close_app (s : St) (l fd : Nat) : (close s l).tab fd = some .app ↔ s.tab fd = some .app := by
  unfold close
  split
  · rename_i h
    simp only [setTab]
    split
    · rename_i e; subst e; simp [h]
    · rfl
  · rfl

theorem close?_app (s : St) (o : Option Nat) (fd : Nat) : (close? s o).tab fd = some .app ↔ s.tab fd = some .app := by
  cases o
  · rfl
  · exact close_app s _ fd

theorem stopLoop_app (l : List Conn) (fd : Nat) : ∀ s : St, (stopLoop l s).tab fd = some .app ↔ s.tab fd = some .app := by
  induction l with
  | nil => intro s; rfl
  | cons x l ih =>
    intro s
    unfold stopLoop
    rw [ih]
    split
    · rfl
    · exact close_app _ _ _

theorem setTab_app {s : St} {l : Nat} (h : s.tab l = none) (fd : Nat) : (setTab s l (some .lib)).tab fd = some .app ↔ s.tab fd = some .app := by
  simp only [setTab]
  split
  · rename_i e; subst e; simp [h]
  · rfl

theorem step_app {L : List Nat} {s t : St} {a : Act} (h : Inv L s) (ha : step s a = some t) (fd : Nat) :
    t.tab fd = some .app ↔ application.has fd (s.tab fd = some .app) a := by
  cases a with
  | appOpen d =>
    simp only [Sock.step] at ha
    split at ha <;> cases ha
    simp only [setTab, application.has]
    by_cases e : fd = d <;> simp [e, eq_comm]
  | appClose d =>
    simp only [Sock.step] at ha
    split at ha <;> cases ha
    simp only [setTab, application.has]
    by_cases e : fd = d <;> simp [e, eq_comm]
  | listen d port fail =>
    simp only [Sock.step] at ha
    split at ha <;> cases ha
    rename_i hn
    simp only [Bool.and_eq_true, Bool.not_eq_true', Bool.or_eq_true, decide_eq_true_eq] at hn
    have h2 := h.unlisten.2.1 d hn.2
    have h3 := close?_app { s with evl := none } s.lfd fd
    show _ ↔ s.tab fd = some .app
    unfold Sock.listen
    generalize close? { s with evl := none } s.lfd = u at *
    rcases fail with _ | f
    · exact (setTab_app h2 fd).trans h3
    · cases f
      · exact h3
      · exact (setTab_app h2 fd).trans h3
      · exact (setTab_app h2 fd).trans h3
  | connect d fail =>
    simp only [Sock.step] at ha
    split at ha <;> cases ha
    rename_i hn
    simp only [Bool.and_eq_true, Bool.not_eq_true', decide_eq_true_eq] at hn
    rcases fail with _ | f
    · exact setTab_app hn.2 fd
    · cases f
      · exact Iff.rfl
      · exact setTab_app hn.2 fd
      · exact setTab_app hn.2 fd
  | connectSync d fail =>
    simp only [Sock.step] at ha
    split at ha <;> cases ha
    rename_i hn
    simp only [Bool.and_eq_true, Bool.not_eq_true', decide_eq_true_eq] at hn
    rcases fail with _ | f
    · exact setTab_app hn.2 fd
    · cases f
      · exact Iff.rfl
      · exact setTab_app hn.2 fd
      · exact setTab_app hn.2 fd
  | accept d fail =>
    simp only [Sock.step] at ha
    split at ha <;> cases ha
    rename_i hn
    simp only [Bool.and_eq_true, Bool.not_eq_true', decide_eq_true_eq] at hn
    rcases fail with _ | f
    · exact setTab_app hn.2 fd
    · cases f
      · exact Iff.rfl
      · exact setTab_app hn.2 fd
      · exact setTab_app hn.2 fd
  | connReady c =>
    simp only [Sock.step] at ha
    split at ha <;> try cases ha
    split at ha <;> cases ha
    exact Iff.rfl
  | connFail c timeout =>
    simp only [Sock.step] at ha
    split at ha <;> try cases ha
    split at ha <;> cases ha
    exact Iff.rfl
  | terminate c =>
    simp only [Sock.step] at ha
    split at ha <;> try cases ha
    split at ha <;> cases ha
    exact Iff.rfl
  | run c =>
    simp only [Sock.step] at ha
    split at ha <;> try cases ha
    split at ha <;> cases ha
    show _ ↔ s.tab fd = some .app
    split
    · exact Iff.rfl
    · exact close_app _ _ fd
  | stop =>
    simp only [Sock.step] at ha
    split at ha <;> cases ha
    exact stopLoop_app _ fd s
  | destroy =>
    simp only [Sock.step] at ha
    split at ha <;> cases ha
    refine (close?_app _ _ fd).trans ?_
    split
    · exact Iff.rfl
    · exact stopLoop_app _ fd s

theorem run_app {as : List Act} (fd : Nat) : ∀ {L : List Nat} {s t : St}, Inv L s → run s as = some t →
    (t.tab fd = some .app ↔ as.foldl (application.has fd) (s.tab fd = some .app)) := by
  induction as with
  | nil => intro L s t h hr; cases hr; exact Iff.rfl
  | cons a as ih =>
    intro L s t h hr
    obtain ⟨u, hu, hr⟩ := Option.bind_eq_some_iff.mp hr
    rw [ih (h.step hu) hr, List.foldl_cons, propext (step_app h hu fd)]

end Sock
end Salticidae
