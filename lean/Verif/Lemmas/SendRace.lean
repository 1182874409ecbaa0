import Verif.Model.SendRace
namespace Salticidae
namespace SendRace

def SPc.ref : SPc → Option Nat
  | .copied _ _ c => some c
  | .wrote _ c => some c
  | _ => none
def DPc.ref : DPc → Option Nat
  | .copied _ c => some c
  | .swapped _ _ c => some c
  | .swapped2 c => some c
  | .idle => none

def nref (l : List Node) (c : Nat) : Nat := l.countP (fun x => x.alive && x.ctl == c)
def sref (l : List SPc) (c : Nat) : Nat := l.countP (fun p => p.ref == some c)
def dref (d : DPc) (c : Nat) : Nat := if d.ref = some c then 1 else 0

theorem countP_set_add {α : Type} (P : α → Bool) {y x : α} : ∀ {l : List α} {i : Nat}, l[i]? = some x →
    (l.set i y).countP P + (if P x then 1 else 0) = l.countP P + (if P y then 1 else 0)
  | [], i, h => by simp at h
  | z :: l, 0, h => by simp at h; subst h; simp [List.countP_cons]; omega
  | z :: l, i + 1, h => by
    simp at h
    have := countP_set_add P (y := y) h
    simp only [List.set_cons_succ, List.countP_cons]; omega

theorem countP_pos {α : Type} (P : α → Bool) {x : α} : ∀ {l : List α} {i : Nat}, l[i]? = some x → P x = true → 0 < l.countP P := by
  intro l i h hp
  exact List.countP_pos_iff.2 ⟨x, List.mem_of_getElem? h, hp⟩

def Look (l : List Node) : SPc → Prop
  | .found k n => ∃ x : Node, l[n]? = some x ∧ x.alive = true ∧ x.key = k
  | .objRead k n o => ∃ x : Node, l[n]? = some x ∧ x.alive = true ∧ x.key = k ∧ x.obj = o
  | .ctlRead k n o c => ∃ x : Node, l[n]? = some x ∧ x.alive = true ∧ x.key = k ∧ x.obj = o ∧ x.ctl = c
  | _ => True

structure I (peers : Bool) (s : St) : Prop where
  safe : s.uaf = false
  sent : ∀ e ∈ s.sent, e.2.2 = some e.2.1
  cnt : ∀ c, s.rc c = s.ext c + nref s.nodes c + sref s.snd c + dref s.disp c
  live : ∀ c, s.live c = true ↔ 0 < s.rc c
  fresh : ∀ c, s.nc ≤ c → s.rc c = 0
  uniq : ∀ (n : Nat) (x : Node) (m : Nat) (y : Node), s.nodes[n]? = some x → x.alive = true → s.nodes[m]? = some y → y.alive = true → x.key = y.key → n = m
  oc : ∀ (n : Nat) (x : Node), s.nodes[n]? = some x → x.alive = true → (∀ o c, s.disp ≠ .swapped n o c) → x.obj = x.ctl
  dc : ∀ n c, s.disp = .copied n c → ∃ x : Node, s.nodes[n]? = some x ∧ x.alive = true
  ds : ∀ n o c, s.disp = .swapped n o c → ∃ x : Node, s.nodes[n]? = some x ∧ x.alive = true ∧ x.obj = c
  look : s.disp = .idle → ∀ p ∈ s.snd, Look s.nodes p
  cop : ∀ k o c, .copied k o c ∈ s.snd → o = c
  cl : peers = false → s.disp = .idle ∧ ∀ p ∈ s.snd, p = .idle ∨ (∃ k n, p = .found k n) ∨ ∃ k n o, p = .objRead k n o

theorem find_some {s : St} {k n : Nat} (h : find s k = some n) : ∃ x : Node, s.nodes[n]? = some x ∧ x.alive = true ∧ x.key = k := by
  simp only [find, List.findIdx?_eq_some_iff_getElem] at h
  obtain ⟨h1, h2, _⟩ := h
  refine ⟨s.nodes[n], by simp [h1], ?_⟩
  simpa using h2

theorem find_none {s : St} {k : Nat} (h : find s k = none) : ∀ (n : Nat) (x : Node), s.nodes[n]? = some x → x.alive = true → x.key ≠ k := by
  intro n x h1 h2 h3
  simp only [find, List.findIdx?_eq_none_iff] at h
  have := h x (List.mem_of_getElem? h1)
  simp [h2, h3] at this

theorem find_of {s : St} (hu : ∀ (n : Nat) (x : Node) (m : Nat) (y : Node), s.nodes[n]? = some x → x.alive = true → s.nodes[m]? = some y → y.alive = true → x.key = y.key → n = m)
    {n : Nat} {x : Node} (h1 : s.nodes[n]? = some x) (h2 : x.alive = true) : find s x.key = some n := by
  rcases e : find s x.key with _ | m
  · exact absurd rfl (find_none e n x h1 h2)
  · obtain ⟨y, h3, h4, h5⟩ := find_some e
    rw [hu n x m y h1 h2 h3 h4 h5.symm]

theorem cur_of {s : St} (hu : ∀ (n : Nat) (x : Node) (m : Nat) (y : Node), s.nodes[n]? = some x → x.alive = true → s.nodes[m]? = some y → y.alive = true → x.key = y.key → n = m)
    {n : Nat} {x : Node} (h1 : s.nodes[n]? = some x) (h2 : x.alive = true) : cur s x.key = some x.ctl := by
  simp [cur, find_of hu h1 h2, h1]

theorem i_init (peers : Bool) (k : Nat) : I peers (init k) := by
  have hm : ∀ p ∈ List.replicate k SPc.idle, p = .idle := fun p h => (List.mem_replicate.1 h).2
  have h0 : ∀ c, (List.replicate k SPc.idle).countP (fun p => p.ref == some c) = 0 := by
    intro c; rw [List.countP_eq_zero]; intro p hp; rw [hm p hp]; simp [SPc.ref]
  refine ⟨rfl, by simp [init], fun c => ?_, by simp [init], by simp [init], by simp [init], by simp [init], by simp [init], by simp [init], ?_, ?_, ?_⟩
  · simp [init, nref, sref, dref, DPc.ref, h0]
  · intro _ p hp; rw [hm p hp]; trivial
  · intro k' o c hp; exact absurd (hm _ hp) (by simp)
  · intro _; exact ⟨rfl, fun p hp => .inl (hm p hp)⟩

section
variable {peers : Bool} {s s' : St}

theorem live_of (h : I peers s) {c : Nat} (hc : 0 < s.ext c + nref s.nodes c + sref s.snd c + dref s.disp c) : s.live c = true := by
  rw [h.live, h.cnt]; exact hc

theorem touch_live {c : Nat} (hc : s.live c = true) : touch s c = s := by simp [touch, hc]

theorem live_node (h : I peers s) {n : Nat} {x : Node} (h1 : s.nodes[n]? = some x) (h2 : x.alive = true) : s.live x.ctl = true :=
  live_of h (by have : 0 < nref s.nodes x.ctl := countP_pos _ h1 (by simp [h2]); omega)

theorem live_snd (h : I peers s) {i c : Nat} {p : SPc} (h1 : s.snd[i]? = some p) (h2 : p.ref = some c) : s.live c = true :=
  live_of h (by have : 0 < sref s.snd c := countP_pos _ h1 (by simp [h2]); omega)

theorem touchNode_live {n : Nat} {x : Node} (h1 : s.nodes[n]? = some x) (h2 : x.alive = true) : touchNode s n = s := by simp [touchNode, h1, h2]

theorem upd_same {α : Type} (f : Nat → α) (i : Nat) (v : α) : upd f i v i = v := by simp [upd]
theorem upd_ne {α : Type} (f : Nat → α) {i j : Nat} (v : α) (h : j ≠ i) : upd f i v j = f j := by simp [upd, h]

theorem nref_set {l : List Node} {n : Nat} {x : Node} (y : Node) (h : l[n]? = some x) (c : Nat) :
    nref (l.set n y) c + (if x.alive && x.ctl == c then 1 else 0) = nref l c + (if y.alive && y.ctl == c then 1 else 0) := countP_set_add _ h

theorem sref_set {l : List SPc} {i : Nat} {p : SPc} (q : SPc) (h : l[i]? = some p) (c : Nat) :
    sref (l.set i q) c + (if p.ref == some c then 1 else 0) = sref l c + (if q.ref == some c then 1 else 0) := countP_set_add _ h

/-- Only a thread that sends takes a step that leaves counts and table alone. -/
theorem i_snd (h : I peers s) {i : Nat} {p q : SPc} (hp : s.snd[i]? = some p) (hr : p.ref = q.ref)
    (hl : s.disp = .idle → Look s.nodes q) (hc : ∀ k o c, q = .copied k o c → o = c)
    (hcl : peers = false → q = .idle ∨ (∃ k n, q = .found k n) ∨ ∃ k n o, q = .objRead k n o)
    {e : List (Nat × Nat × Option Nat)} (he : ∀ x ∈ e, x.2.2 = some x.2.1) : I peers { s with snd := s.snd.set i q, sent := s.sent ++ e } := by
  refine ⟨h.safe, ?_, fun c => ?_, h.live, h.fresh, h.uniq, h.oc, h.dc, h.ds, ?_, ?_, ?_⟩
  · intro x hx
    rcases List.mem_append.1 hx with h1 | h1
    · exact h.sent x h1
    · exact he x h1
  · have := sref_set q hp c
    rw [hr] at this
    have h2 := h.cnt c
    simp only; omega
  · intro hd r hr'
    rcases List.mem_or_eq_of_mem_set hr' with h1 | h1
    · exact h.look hd r h1
    · subst h1; exact hl hd
  · intro k o c hr'
    rcases List.mem_or_eq_of_mem_set hr' with h1 | h1
    · exact h.cop k o c h1
    · exact hc k o c h1.symm
  · intro hf
    refine ⟨(h.cl hf).1, fun r hr' => ?_⟩
    rcases List.mem_or_eq_of_mem_set hr' with h1 | h1
    · exact (h.cl hf).2 r h1
    · subst h1; exact hcl hf

theorem i_snd0 (h : I peers s) {i : Nat} {p q : SPc} (hp : s.snd[i]? = some p) (hr : p.ref = q.ref)
    (hl : s.disp = .idle → Look s.nodes q) (hc : ∀ k o c, q = .copied k o c → o = c)
    (hcl : peers = false → q = .idle ∨ (∃ k n, q = .found k n) ∨ ∃ k n o, q = .objRead k n o) : I peers { s with snd := s.snd.set i q } := by
  have := i_snd (e := []) h hp hr hl hc hcl (by simp)
  simpa using this

/-- A state that differs in counts only. -/
theorem i_cnt (h : I peers s) {rc ext : Nat → Nat} {live : Nat → Bool} {nc : Nat}
    (h1 : ∀ c, rc c = ext c + nref s.nodes c + sref s.snd c + dref s.disp c) (h2 : ∀ c, live c = true ↔ 0 < rc c) (h3 : ∀ c, nc ≤ c → rc c = 0) :
    I peers { s with rc := rc, ext := ext, live := live, nc := nc } :=
  ⟨h.safe, h.sent, h1, h2, h3, h.uniq, h.oc, h.dc, h.ds, h.look, h.cop, h.cl⟩

theorem get_append {l : List Node} {x : Node} {n : Nat} {y : Node} (h : (l ++ [x])[n]? = some y) : l[n]? = some y ∨ (n = l.length ∧ y = x) := by
  rw [List.getElem?_append] at h
  split at h
  · exact .inl h
  · right
    rename_i hn
    rcases e : n - l.length with _ | m
    · simp [e] at h; exact ⟨by omega, h.symm⟩
    · simp [e] at h

theorem nref_append (l : List Node) (x : Node) (c : Nat) : nref (l ++ [x]) c = nref l c + (if x.alive && x.ctl == c then 1 else 0) := by
  simp [nref, List.countP_append, List.countP_cons]

theorem look_append {l : List Node} {x : Node} {p : SPc} (h : Look l p) : Look (l ++ [x]) p := by
  have : ∀ (n : Nat) (y : Node), l[n]? = some y → (l ++ [x])[n]? = some y := by
    intro n y hy
    have : n < l.length := by
      rcases Nat.lt_or_ge n l.length with h | h
      · exact h
      · simp [List.getElem?_eq_none h] at hy
    rw [List.getElem?_append_left this]; exact hy
  cases p <;> simp only [Look] at h ⊢ <;> grind

/-- A new entry. -/
theorem i_push (h : I peers s) {k c : Nat} (hn : ∀ (n : Nat) (x : Node), s.nodes[n]? = some x → x.alive = true → x.key ≠ k) (hd : s.disp = .idle)
    {rc : Nat → Nat} {live : Nat → Bool} {nc : Nat} (h1 : rc = upd s.rc c (s.rc c + 1)) (h2 : live = upd s.live c true) (h3 : s.nc ≤ nc) (h4 : c < nc) :
    I peers { s with rc := rc, live := live, nc := nc, nodes := s.nodes ++ [⟨k, true, c, c⟩] } := by
  subst h1 h2
  refine ⟨h.safe, h.sent, fun d => ?_, fun d => ?_, fun d hd' => ?_, ?_, ?_, ?_, ?_, ?_, h.cop, h.cl⟩
  · simp only [nref_append]
    have := h.cnt d
    by_cases e : d = c
    · subst e; simp [upd]; omega
    · simp [upd_ne _ _ e, Ne.symm e]; omega
  · by_cases e : d = c
    · subst e; simp [upd]
    · simp only [upd_ne _ _ e]; exact h.live d
  · have : d ≠ c := by simp only at hd'; omega
    simp only [upd_ne _ _ this]; exact h.fresh d (by simp only at hd'; omega)
  · intro n x m y a1 a2 a3 a4 a5
    rcases get_append a1 with b1 | ⟨b1, b2⟩ <;> rcases get_append a3 with b3 | ⟨b3, b4⟩
    · exact h.uniq n x m y b1 a2 b3 a4 a5
    · subst b4; exact absurd a5 (hn n x b1 a2)
    · subst b2; exact absurd a5.symm (hn m y b3 a4)
    · omega
  · intro n x a1 a2 a3
    rcases get_append a1 with b1 | ⟨b1, b2⟩
    · exact h.oc n x b1 a2 a3
    · subst b2; rfl
  · intro n c h'; simp only [hd] at h'; cases h'
  · intro n o c h'; simp only [hd] at h'; cases h'
  · intro hd p hp; exact look_append (h.look hd p hp)

/-- An entry is removed while no thread is looking at the table. -/
theorem i_erase (h : I peers s) {n : Nat} {x : Node} (h1 : s.nodes[n]? = some x) (h2 : x.alive = true) (hd : s.disp = .idle)
    (hl : ∀ p ∈ s.snd, p.looking = false) : I peers (erase s n) ∧ (erase s n).disp = s.disp ∧ (erase s n).snd = s.snd ∧ (erase s n).ext = s.ext ∧
      (erase s n).nc = s.nc ∧ (erase s n).nodes = s.nodes.set n { x with alive := false } := by
  have hlv := live_node h h1 h2
  simp only [erase, h1]
  have ht : touch { s with nodes := s.nodes.set n { x with alive := false } } x.ctl = { s with nodes := s.nodes.set n { x with alive := false } } := by
    simp [touch, hlv]
  have hget : ∀ (m : Nat) (y : Node), (s.nodes.set n { x with alive := false })[m]? = some y → y.alive = true → s.nodes[m]? = some y := by
    intro m y hm hy
    rw [List.getElem?_set] at hm
    split at hm
    · split at hm
      · cases hm; simp at hy
      · cases hm
    · exact hm
  have hpos := (h.live x.ctl).1 hlv
  refine ⟨?_, ?_⟩
  · simp only [release, ht]
    refine ⟨h.safe, h.sent, fun d => ?_, fun d => ?_, fun d hd' => ?_, ?_, ?_, ?_, ?_, ?_, h.cop, h.cl⟩
    · have a := nref_set { x with alive := false } h1 d
      have b := h.cnt d
      by_cases e : d = x.ctl
      · subst e; simp [h2, upd] at a ⊢; omega
      · simp [h2, upd, e, Ne.symm e] at a ⊢; omega
    · by_cases e : d = x.ctl
      · subst e
        simp only [upd_same]
        split
        · simp [upd]; omega
        · simp [hlv]; omega
      · simp only [upd_ne _ _ e]
        split
        · simp only [upd_ne _ _ e]; exact h.live d
        · exact h.live d
    · by_cases e : d = x.ctl
      · subst e; have := h.fresh _ hd'; simp [upd]; omega
      · simp only [upd_ne _ _ e]; exact h.fresh d hd'
    · intro a y b z a1 a2 a3 a4 a5
      exact h.uniq a y b z (hget _ _ a1 a2) a2 (hget _ _ a3 a4) a4 a5
    · intro a y a1 a2 a3; exact h.oc a y (hget _ _ a1 a2) a2 a3
    · intro a c h'; simp only [hd] at h'; cases h'
    · intro a o c h'; simp only [hd] at h'; cases h'
    · intro _ p hp
      have := hl p hp
      cases p <;> simp [SPc.looking] at this <;> trivial
  · simp [release, ht]

theorem no_readers (h : readers s = false) : ∀ p ∈ s.snd, p.looking = false := by
  intro p hp
  simp only [readers, List.any_eq_false] at h
  have := h p hp
  cases p <;> simp [SPc.holds, SPc.looking] at this ⊢

theorem i_step {a : Act} (h : I peers s) (hs : step peers s a = some s')
    (h1 : s.disp ≠ .idle → ∀ p ∈ s.snd, p.looking = false)
    (h2 : peers = false → ((∃ k c, a = .setup k c) ∨ ∃ k, a = .del k) → ∀ p ∈ s.snd, p.looking = false) : I peers s' := by
  cases a with
  | create =>
    cases hs
    have h0 := h.fresh s.nc (Nat.le_refl _)
    have h3 := h.cnt s.nc
    refine i_cnt h (fun c => ?_) (fun c => ?_) (fun c hc => ?_)
    · by_cases e : c = s.nc
      · subst e; simp [upd]; omega
      · simp only [upd_ne _ _ e]; exact h.cnt c
    · by_cases e : c = s.nc
      · subst e; simp [upd]
      · simp only [upd_ne _ _ e]; exact h.live c
    · have e : c ≠ s.nc := by omega
      simp only [upd_ne _ _ e]; exact h.fresh c (by omega)
  | dup c =>
    simp only [step] at hs
    split at hs
    · cases hs
    · rename_i hx
      cases hs
      have hl := live_of h (c := c) (by omega)
      simp only [addRef, touch_live hl]
      refine i_cnt h (fun d => ?_) (fun d => ?_) (fun d hd => ?_)
      · have := h.cnt d
        by_cases e : d = c
        · subst e; simp [upd]; omega
        · simp only [upd_ne _ _ e]; exact this
      · by_cases e : d = c
        · subst e; simp [upd, hl]
        · simp only [upd_ne _ _ e]; exact h.live d
      · have e : d ≠ c := by
          rintro rfl; have := h.fresh d hd; have := (h.live d).1 hl; omega
        simp only [upd_ne _ _ e]; exact h.fresh d hd
  | drop c =>
    simp only [step] at hs
    split at hs
    · cases hs
    · rename_i hx
      cases hs
      have hl := live_of h (c := c) (by omega)
      have hp := (h.live c).1 hl
      simp only [release, touch_live hl]
      refine i_cnt h (fun d => ?_) (fun d => ?_) (fun d hd => ?_)
      · have := h.cnt d
        by_cases e : d = c
        · subst e; simp [upd]; omega
        · simp only [upd_ne _ _ e]; exact this
      · by_cases e : d = c
        · subst e
          simp only [upd_same]
          split
          · simp [upd]; omega
          · simp [hl]; omega
        · simp only [upd_ne _ _ e]
          split
          · simp only [upd_ne _ _ e]; exact h.live d
          · exact h.live d
      · have e : d ≠ c := by
          rintro rfl; have := h.fresh d hd; omega
        simp only [upd_ne _ _ e]; exact h.fresh d hd
  | add k =>
    simp only [step] at hs
    split at hs
    · rename_i hg
      cases hs
      have h0 := h.fresh s.nc (Nat.le_refl _)
      exact i_push h (find_none hg.2.2.2) hg.2.1 (by rw [h0]) rfl (Nat.le_succ _) (Nat.lt_succ_self _)
    · cases hs
  | setup k c =>
    simp only [step] at hs
    split at hs
    · rename_i hg
      cases hs
      have hd := (h.cl hg.1).1
      have hlk := h2 hg.1 (.inl ⟨k, c, rfl⟩)
      have main : ∀ s1, I peers s1 → s1.disp = .idle → s1.ext c ≠ 0 → (∀ (n : Nat) (x : Node), s1.nodes[n]? = some x → x.alive = true → x.key ≠ k) →
          I peers { addRef s1 c with nodes := (addRef s1 c).nodes ++ [⟨k, true, c, c⟩] } := by
        intro s1 h hd hx hn
        have hl := live_of h (c := c) (by omega)
        have hp := (h.live c).1 hl
        simp only [addRef, touch_live hl]
        refine i_push h hn hd (nc := s1.nc) rfl ?_ (Nat.le_refl _) ?_
        · funext d
          by_cases e : d = c
          · subst e; simp [upd, hl]
          · simp [upd_ne _ _ e]
        · rcases Nat.lt_or_ge c s1.nc with h3 | h3
          · exact h3
          · have := h.fresh c h3; omega
      rcases e : find s k with _ | n
      · simp only
        exact main s h hd hg.2 (find_none e)
      · simp only
        obtain ⟨x, a1, a2, a3⟩ := find_some e
        obtain ⟨b1, b2, b3, b4, b5, b6⟩ := i_erase h a1 a2 hd hlk
        refine main _ b1 (by rw [b2, hd]) (by rw [b4]; exact hg.2) ?_
        intro m y c1 c2 c3
        rw [b6, List.getElem?_set] at c1
        split at c1
        · split at c1
          · cases c1; simp at c2
          · cases c1
        · rename_i hne
          exact hne (h.uniq n x m y a1 a2 c1 c2 (by rw [a3, c3]))
    · cases hs
  | del k =>
    simp only [step] at hs
    split at hs
    · rename_i hg
      rcases e : find s k with _ | n
      · rw [e] at hs; cases hs
      · rw [e] at hs; cases hs
        obtain ⟨x, a1, a2, a3⟩ := find_some e
        refine (i_erase h a1 a2 hg.1 ?_).1
        cases hp : peers with
        | true => exact no_readers (hg.2 hp)
        | false => exact h2 hp (.inr ⟨k, rfl⟩)
    · cases hs
  | assign k c =>
    simp only [step] at hs
    split at hs
    · rename_i hg
      rcases e : find s k with _ | n
      · rw [e] at hs; cases hs
      · rw [e] at hs; cases hs
        obtain ⟨x, a1, a2, a3⟩ := find_some e
        have hl := live_of h (c := c) (by omega)
        have hp := (h.live c).1 hl
        simp only [addRef, touch_live hl]
        refine ⟨h.safe, h.sent, fun d => ?_, fun d => ?_, fun d hd => ?_, h.uniq, ?_, ?_, ?_, ?_, h.cop, ?_⟩
        · have := h.cnt d
          simp only [hg.2.1, dref, DPc.ref] at this ⊢
          by_cases e : d = c
          · subst e; simp [upd] at this ⊢; omega
          · simp [upd_ne _ _ e, Ne.symm e] at this ⊢; exact this
        · by_cases e : d = c
          · subst e; simp [upd, hl]
          · simp only [upd_ne _ _ e]; exact h.live d
        · have e : d ≠ c := by
            rintro rfl; have := h.fresh d hd; omega
          simp only [upd_ne _ _ e]; exact h.fresh d hd
        · intro m y b1 b2 _; exact h.oc m y b1 b2 (by simp [hg.2.1])
        · intro m d he; simp only [DPc.copied.injEq] at he; obtain ⟨rfl, rfl⟩ := he; exact ⟨x, a1, a2⟩
        · intro m o d he; cases he
        · intro he; cases he
        · intro hf; rw [hg.1] at hf; cases hf
    · cases hs
  | dstep =>
    simp only [step] at hs
    split at hs
    · cases hs
    · rename_i n c hd
      have hlk := h1 (by rw [hd]; simp)
      obtain ⟨x, a1, a2⟩ := h.dc n c hd
      rw [a1] at hs; cases hs
      have hget : ∀ (m : Nat) (y : Node), (s.nodes.set n { x with obj := c })[m]? = some y → (m = n ∧ y = { x with obj := c }) ∨ (m ≠ n ∧ s.nodes[m]? = some y) := by
        intro m y hm
        rw [List.getElem?_set] at hm
        split at hm
        · rename_i e
          split at hm
          · cases hm; exact .inl ⟨e.symm, rfl⟩
          · cases hm
        · rename_i e; exact .inr ⟨fun e' => e e'.symm, hm⟩
      refine ⟨h.safe, h.sent, fun d => ?_, h.live, h.fresh, ?_, ?_, ?_, ?_, ?_, h.cop, ?_⟩
      · have b := h.cnt d
        have a := nref_set { x with obj := c } a1 d
        simp only [hd, dref, DPc.ref, Option.some.injEq] at b ⊢
        simp only at a
        omega
      · intro m y m' y' b1 b2 b3 b4 b5
        have k1 : ∃ y0, s.nodes[m]? = some y0 ∧ y0.alive = y.alive ∧ y0.key = y.key := by
          rcases hget m y b1 with ⟨rfl, rfl⟩ | ⟨_, e⟩
          · exact ⟨x, a1, rfl, rfl⟩
          · exact ⟨y, e, rfl, rfl⟩
        have k2 : ∃ y0, s.nodes[m']? = some y0 ∧ y0.alive = y'.alive ∧ y0.key = y'.key := by
          rcases hget m' y' b3 with ⟨rfl, rfl⟩ | ⟨_, e⟩
          · exact ⟨x, a1, rfl, rfl⟩
          · exact ⟨y', e, rfl, rfl⟩
        obtain ⟨y0, c1, c2, c3⟩ := k1
        obtain ⟨y1, d1, d2, d3⟩ := k2
        exact h.uniq m y0 m' y1 c1 (by rw [c2, b2]) d1 (by rw [d2, b4]) (by rw [c3, d3, b5])
      · intro m y b1 b2 b3
        rcases hget m y b1 with ⟨rfl, rfl⟩ | ⟨_, e⟩
        · exact absurd rfl (b3 _ _)
        · exact h.oc m y e b2 (by simp [hd])
      · intro m d he; cases he
      · intro m o d he
        simp only [DPc.swapped.injEq] at he
        obtain ⟨rfl, rfl, rfl⟩ := he
        have hlt : n < s.nodes.length := by
          rcases Nat.lt_or_ge n s.nodes.length with h | h
          · exact h
          · simp [List.getElem?_eq_none h] at a1
        exact ⟨{ x with obj := c }, by simp [hlt], a2, rfl⟩
      · intro he; cases he
      · intro hf; have := (h.cl hf).1; rw [hd] at this; cases this
    · rename_i n o c hd
      have hlk := h1 (by rw [hd]; simp)
      obtain ⟨x, a1, a2, a3⟩ := h.ds n o c hd
      rw [a1] at hs; cases hs
      have hget : ∀ (m : Nat) (y : Node), (s.nodes.set n { x with ctl := c })[m]? = some y → (m = n ∧ y = { x with ctl := c }) ∨ (m ≠ n ∧ s.nodes[m]? = some y) := by
        intro m y hm
        rw [List.getElem?_set] at hm
        split at hm
        · rename_i e
          split at hm
          · cases hm; exact .inl ⟨e.symm, rfl⟩
          · cases hm
        · rename_i e; exact .inr ⟨fun e' => e e'.symm, hm⟩
      refine ⟨h.safe, h.sent, fun d => ?_, h.live, h.fresh, ?_, ?_, ?_, ?_, ?_, h.cop, ?_⟩
      · have b := h.cnt d
        have a : nref (s.nodes.set n { x with ctl := c }) d + (if x.ctl = d then 1 else 0) = nref s.nodes d + (if c = d then 1 else 0) := by
          simpa [a2] using nref_set { x with ctl := c } a1 d
        simp only [hd, dref, DPc.ref, Option.some.injEq] at b ⊢
        omega
      · intro m y m' y' b1 b2 b3 b4 b5
        have k1 : ∃ y0, s.nodes[m]? = some y0 ∧ y0.alive = y.alive ∧ y0.key = y.key := by
          rcases hget m y b1 with ⟨rfl, rfl⟩ | ⟨_, e⟩
          · exact ⟨x, a1, rfl, rfl⟩
          · exact ⟨y, e, rfl, rfl⟩
        have k2 : ∃ y0, s.nodes[m']? = some y0 ∧ y0.alive = y'.alive ∧ y0.key = y'.key := by
          rcases hget m' y' b3 with ⟨rfl, rfl⟩ | ⟨_, e⟩
          · exact ⟨x, a1, rfl, rfl⟩
          · exact ⟨y', e, rfl, rfl⟩
        obtain ⟨y0, c1, c2, c3⟩ := k1
        obtain ⟨y1, d1, d2, d3⟩ := k2
        exact h.uniq m y0 m' y1 c1 (by rw [c2, b2]) d1 (by rw [d2, b4]) (by rw [c3, d3, b5])
      · intro m y b1 b2 b3
        rcases hget m y b1 with ⟨rfl, rfl⟩ | ⟨b4, e⟩
        · exact a3
        · refine h.oc m y e b2 (fun o' c' he => ?_)
          rw [hd] at he; simp only [DPc.swapped.injEq] at he
          exact b4 he.1.symm
      · intro m d he; cases he
      · intro m o d he; cases he
      · intro he; cases he
      · intro hf; have := (h.cl hf).1; rw [hd] at this; cases this
    · rename_i c hd
      have hlk := h1 (by rw [hd]; simp)
      cases hs
      have hl := live_of h (c := c) (by simp [hd, dref, DPc.ref])
      have hp := (h.live c).1 hl
      simp only [release, touch_live hl]
      refine ⟨h.safe, h.sent, fun d => ?_, fun d => ?_, fun d hd' => ?_, h.uniq, ?_, ?_, ?_, ?_, h.cop, ?_⟩
      · have := h.cnt d
        simp only [hd, dref, DPc.ref, Option.some.injEq] at this ⊢
        by_cases e : d = c
        · subst e; simp [upd] at this ⊢; omega
        · simp [upd_ne _ _ e, Ne.symm e] at this ⊢; exact this
      · by_cases e : d = c
        · subst e
          simp only [upd_same]
          split
          · simp [upd]; omega
          · simp [hl]; omega
        · simp only [upd_ne _ _ e]
          split
          · simp only [upd_ne _ _ e]; exact h.live d
          · exact h.live d
      · have e : d ≠ c := by
          rintro rfl; have := h.fresh d hd'; omega
        simp only [upd_ne _ _ e]; exact h.fresh d hd'
      · intro m y b1 b2 _; exact h.oc m y b1 b2 (by simp [hd])
      · intro m d he; cases he
      · intro m o d he; cases he
      · intro _ p hp
        have := hlk p hp
        cases p <;> simp [SPc.looking] at this <;> trivial
      · intro hf; have := (h.cl hf).1; rw [hd] at this; cases this
  | call i k =>
    simp only [step] at hs
    split at hs
    · rename_i hi
      split at hs
      · rename_i hp
        cases hs
        exact i_snd0 h hi rfl (fun _ => trivial) (by simp) (by simp [hp])
      · split at hs
        · rename_i n e
          cases hs
          obtain ⟨x, a1, a2, a3⟩ := find_some e
          exact i_snd0 h hi rfl (fun _ => ⟨x, a1, a2, a3⟩) (by simp) (fun _ => .inr (.inl ⟨k, n, rfl⟩))
        · cases hs; exact h
    · cases hs
  | sstep i =>
    simp only [step] at hs
    have idl : ∀ p, s.snd[i]? = some p → p.looking = true → s.disp = .idle := by
      intro p hp hl
      by_cases hd : s.disp = .idle
      · exact hd
      · have := h1 hd p (List.mem_of_getElem? hp); rw [hl] at this; cases this
    split at hs
    · cases hs
    · cases hs
    · rename_i k hi
      have hpe : peers = true := by
        cases hp : peers with
        | true => rfl
        | false => have := (h.cl hp).2 _ (List.mem_of_getElem? hi); simp at this
      split at hs
      · rename_i n e
        cases hs
        obtain ⟨x, a1, a2, a3⟩ := find_some e
        exact i_snd0 h hi rfl (fun _ => ⟨x, a1, a2, a3⟩) (by simp) (by simp [hpe])
      · cases hs
        exact i_snd0 h hi rfl (fun _ => trivial) (by simp) (by simp [hpe])
    · rename_i k n hi
      obtain ⟨x, a1, a2, a3⟩ := h.look (idl _ hi rfl) _ (List.mem_of_getElem? hi)
      rw [a1] at hs; cases hs
      rw [touchNode_live a1 a2]
      exact i_snd0 h hi rfl (fun _ => ⟨x, a1, a2, a3, rfl⟩) (by simp) (fun _ => .inr (.inr ⟨k, n, _, rfl⟩))
    · rename_i k n o hi
      have hd := idl _ hi rfl
      obtain ⟨x, a1, a2, a3, a4⟩ := h.look hd _ (List.mem_of_getElem? hi)
      have hoc := h.oc n x a1 a2 (by simp [hd])
      split at hs
      · rename_i hp
        rw [a1] at hs; cases hs
        rw [touchNode_live a1 a2]
        exact i_snd0 h hi rfl (fun _ => ⟨x, a1, a2, a3, a4, rfl⟩) (by simp) (by simp [hp])
      · cases hs
        have hl := live_node h a1 a2
        rw [← hoc, a4] at hl
        rw [touch_live hl]
        refine i_snd (q := .idle) h hi rfl (fun _ => trivial) (by simp) (fun _ => .inl rfl) ?_
        simp only [List.mem_singleton, forall_eq]
        rw [← a3, cur_of h.uniq a1 a2, ← hoc, a4]
    · rename_i k n o c hi
      have hd := idl _ hi rfl
      have hpe : peers = true := by
        cases hp : peers with
        | true => rfl
        | false => have := (h.cl hp).2 _ (List.mem_of_getElem? hi); simp at this
      obtain ⟨x, a1, a2, a3, a4, a5⟩ := h.look hd _ (List.mem_of_getElem? hi)
      have hoc := h.oc n x a1 a2 (by simp [hd])
      have hl := live_node h a1 a2
      rw [a5] at hl
      have hp := (h.live c).1 hl
      cases hs
      simp only [addRef, touch_live hl]
      refine ⟨h.safe, ?_, fun d => ?_, fun d => ?_, fun d hd' => ?_, h.uniq, h.oc, h.dc, h.ds, ?_, ?_, by simp [hpe]⟩
      · intro e he
        rcases List.mem_append.1 he with h3 | h3
        · exact h.sent e h3
        · simp only [List.mem_singleton] at h3; subst h3
          simp only
          rw [← a3, cur_of h.uniq a1 a2, ← hoc, a4]
      · have b := h.cnt d
        have a := sref_set (.copied k o c) hi d
        simp only [SPc.ref, Option.some_beq_some, beq_iff_eq] at a
        by_cases e : d = c
        · subst e; simp [upd] at a ⊢; omega
        · simp [upd_ne _ _ e, Ne.symm e] at a ⊢; omega
      · by_cases e : d = c
        · subst e; simp [upd, hl]
        · simp only [upd_ne _ _ e]; exact h.live d
      · have e : d ≠ c := by
          rintro rfl; have := h.fresh d hd'; omega
        simp only [upd_ne _ _ e]; exact h.fresh d hd'
      · intro hd r hr'
        rcases List.mem_or_eq_of_mem_set hr' with h3 | h3
        · exact h.look hd r h3
        · subst h3; trivial
      · intro k' o' c' hr'
        rcases List.mem_or_eq_of_mem_set hr' with h3 | h3
        · exact h.cop k' o' c' h3
        · cases h3; rw [← a4, hoc, a5]
    · rename_i k o c hi
      have hpe : peers = true := by
        cases hp : peers with
        | true => rfl
        | false => have := (h.cl hp).2 _ (List.mem_of_getElem? hi); simp at this
      cases hs
      have hl := live_snd h hi rfl
      have := h.cop k o c (List.mem_of_getElem? hi)
      subst this
      rw [touch_live hl]
      exact i_snd0 h hi rfl (fun _ => trivial) (by simp) (by simp [hpe])
    · rename_i k c hi
      have hpe : peers = true := by
        cases hp : peers with
        | true => rfl
        | false => have := (h.cl hp).2 _ (List.mem_of_getElem? hi); simp at this
      cases hs
      have hl := live_snd h hi rfl
      have hp := (h.live c).1 hl
      simp only [release, touch_live hl]
      refine ⟨h.safe, h.sent, fun d => ?_, fun d => ?_, fun d hd' => ?_, h.uniq, h.oc, h.dc, h.ds, ?_, ?_, by simp [hpe]⟩
      · have b := h.cnt d
        have a := sref_set (.released k) hi d
        simp only [SPc.ref, Option.some_beq_some, beq_iff_eq] at a
        by_cases e : d = c
        · subst e; simp [upd] at a ⊢; omega
        · simp [upd_ne _ _ e, Ne.symm e] at a ⊢; omega
      · by_cases e : d = c
        · subst e
          simp only [upd_same]
          split
          · simp [upd]; omega
          · simp [hl]; omega
        · simp only [upd_ne _ _ e]
          split
          · simp only [upd_ne _ _ e]; exact h.live d
          · exact h.live d
      · have e : d ≠ c := by
          rintro rfl; have := h.fresh d hd'; omega
        simp only [upd_ne _ _ e]; exact h.fresh d hd'
      · intro hd r hr'
        rcases List.mem_or_eq_of_mem_set hr' with h3 | h3
        · exact h.look hd r h3
        · subst h3; trivial
      · intro k' o' c' hr'
        rcases List.mem_or_eq_of_mem_set hr' with h3 | h3
        · exact h.cop k' o' c' h3
        · cases h3
    · rename_i k hi
      have hpe : peers = true := by
        cases hp : peers with
        | true => rfl
        | false => have := (h.cl hp).2 _ (List.mem_of_getElem? hi); simp at this
      cases hs
      exact i_snd0 h hi rfl (fun _ => trivial) (by simp) (by simp [hpe])

theorem i_run : ∀ (as : List Act) (s s' : St), I peers s → run peers s as = some s' →
    (∀ p ∈ trace peers s as, (p.1.disp ≠ .idle → ∀ q ∈ p.1.snd, q.looking = false) ∧
      (peers = false → ((∃ k c, p.2 = .setup k c) ∨ ∃ k, p.2 = .del k) → ∀ q ∈ p.1.snd, q.looking = false)) → I peers s' := by
  intro as
  induction as with
  | nil => intro s s' hi h _; cases h; exact hi
  | cons a as ih =>
    intro s s' hi h hc
    simp only [run] at h
    rcases e : step peers s a with _ | s1
    · rw [e] at h; cases h
    · rw [e] at h
      simp only [trace, e] at hc
      have h0 := hc (s, a) (by simp)
      exact ih s1 s' (i_step hi e h0.1 h0.2) h (fun p hp => hc p (List.mem_cons_of_mem _ hp))
end

theorem not_looking {s : St} (h : ¬ ∃ p ∈ s.snd, p.looking = true) : ∀ q ∈ s.snd, q.looking = false := by
  intro q hq
  cases e : q.looking with
  | false => rfl
  | true => exact absurd ⟨q, hq, e⟩ h

theorem erase_disp (s : St) (n : Nat) : (erase s n).disp = s.disp := by
  simp only [erase]; split
  · simp only [release, touch]; split <;> rfl
  · rfl

theorem step_idle {s s' : St} {a : Act} (h : s.disp = .idle) (ha : ∀ k c, a ≠ .assign k c) (hs : step true s a = some s') : s'.disp = .idle := by
  cases a with
  | assign k c => exact absurd rfl (ha k c)
  | create => cases hs; exact h
  | dup c => simp only [step] at hs; split at hs <;> cases hs; simp only [addRef, touch]; split <;> exact h
  | drop c => simp only [step] at hs; split at hs <;> cases hs; simp only [release, touch]; split <;> exact h
  | add k => simp only [step] at hs; split at hs <;> cases hs; exact h
  | setup k c => simp [step] at hs
  | del k =>
    simp only [step] at hs
    split at hs
    · split at hs <;> cases hs
      rw [erase_disp]; exact h
    · cases hs
  | dstep => simp [step, h] at hs
  | call i k =>
    simp only [step] at hs
    split at hs
    · simp at hs; subst hs; exact h
    · cases hs
  | sstep i =>
    simp only [step, if_true] at hs
    split at hs
    · cases hs
    · cases hs
    · split at hs <;> cases hs <;> exact h
    · split at hs <;> cases hs; simp only [touchNode]; split <;> exact h
    · split at hs <;> cases hs; simp only [touchNode]; split <;> exact h
    · cases hs; simp only [addRef, touch]; split <;> exact h
    · cases hs; simp only [touch]; split <;> exact h
    · cases hs; simp only [release, touch]; split <;> exact h
    · cases hs; exact h

theorem trace_idle : ∀ (as : List Act) (s : St), s.disp = .idle → (∀ a ∈ as, ∀ k c, a ≠ .assign k c) → ∀ p ∈ trace true s as, p.1.disp = .idle := by
  intro as
  induction as with
  | nil => intro s _ _ p hp; simp [trace] at hp
  | cons a as ih =>
    intro s h ha p hp
    simp only [trace, List.mem_cons] at hp
    rcases hp with rfl | hp
    · exact h
    · rcases e : step true s a with _ | s1
      · simp [e] at hp
      · rw [e] at hp
        exact ih s1 (step_idle h (ha a (by simp)) e) (fun b hb => ha b (by simp [hb])) p hp

end SendRace
end Salticidae
