import Verif.Model.Races
import Verif.Lemmas.PoolLoad
import Verif.Lemmas.PoolV3
namespace Salticidae
namespace Races
open Spec.Races
open Pool (Cfg Task Upd)

/-! ### Happens-before and appending an event -/

def Sees (L : List Ev) (θ : Thread) (i : Nat) : Prop := ∃ j a, L[j]? = some a ∧ a.thread = θ ∧ (i = j ∨ HB L i j)
def Carr (L : List Ev) (p i : Nat) : Prop := p < L.length ∧ (i = p ∨ HB L i p)
def Acc (L : List Ev) (x : Nat × Loc) (i : Nat) : Prop := ∃ a, L[i]? = some a ∧ (x ∈ a.reads ∨ x ∈ a.writes)
def Wr (L : List Ev) (x : Nat × Loc) (i : Nat) : Prop := ∃ a, L[i]? = some a ∧ x ∈ a.writes
/-- What happens before an event that is appended. -/
def Hbn (L : List Ev) (e : Ev) (i : Nat) : Prop :=
  Sees L e.thread i ∨ (∃ p, e.waited = some p ∧ Carr L p i) ∨ (e.joined = true ∧ i < L.length)

theorem get_append {L : List Ev} {e a : Ev} {i : Nat} (h : L[i]? = some a) : (L ++ [e])[i]? = some a := by
  have hlt : i < L.length := by
    rcases Nat.lt_or_ge i L.length with h1 | h1
    · exact h1
    · rw [List.getElem?_eq_none h1] at h; cases h
  rw [List.getElem?_append_left hlt, h]

theorem get_new {L : List Ev} {e : Ev} : (L ++ [e])[L.length]? = some e := by simp

theorem get_lt {L : List Ev} {a : Ev} {i : Nat} (h : L[i]? = some a) : i < L.length := by
  rcases Nat.lt_or_ge i L.length with h1 | h1
  · exact h1
  · rw [List.getElem?_eq_none h1] at h; cases h

theorem get_cases {L : List Ev} {e a : Ev} {i : Nat} (h : (L ++ [e])[i]? = some a) : L[i]? = some a ∨ (i = L.length ∧ a = e) := by
  rcases Nat.lt_trichotomy i L.length with h1 | h1 | h1
  · rw [List.getElem?_append_left h1] at h; exact .inl h
  · subst h1; rw [get_new] at h; exact .inr ⟨rfl, by simpa using h.symm⟩
  · rw [List.getElem?_eq_none (by simp; omega)] at h; cases h

theorem hb_append {L : List Ev} {e : Ev} {i j : Nat} (h : HB L i j) : HB (L ++ [e]) i j := by
  induction h with
  | edge h =>
    obtain ⟨hl, a, b, h1, h2, h3⟩ := h
    exact .edge ⟨hl, a, b, get_append h1, get_append h2, h3⟩
  | trans _ _ h1 h2 => exact .trans h1 h2

theorem sees_append {L : List Ev} {e : Ev} {θ : Thread} {i : Nat} (h : Sees L θ i) : Sees (L ++ [e]) θ i := by
  obtain ⟨j, a, h1, h2, h3⟩ := h
  exact ⟨j, a, get_append h1, h2, h3.imp id hb_append⟩

theorem carr_append {L : List Ev} {e : Ev} {p i : Nat} (h : Carr L p i) : Carr (L ++ [e]) p i :=
  ⟨by simp; have := h.1; omega, h.2.imp id hb_append⟩

theorem hbn_hb {L : List Ev} {e : Ev} {i : Nat} (h : Hbn L e i) : HB (L ++ [e]) i L.length := by
  have key : ∀ j a, L[j]? = some a → (a.thread = e.thread ∨ e.waited = some j ∨ e.joined = true) → (i = j ∨ HB L i j) →
      HB (L ++ [e]) i L.length := by
    intro j a h1 h2 h3
    have e1 : HB (L ++ [e]) j L.length := .edge ⟨get_lt h1, a, e, get_append h1, get_new, h2⟩
    rcases h3 with rfl | h3
    · exact e1
    · exact .trans (hb_append h3) e1
  rcases h with ⟨j, a, h1, h2, h3⟩ | ⟨p, h1, h2, h3⟩ | ⟨h1, h2⟩
  · exact key j a h1 (.inl h2) h3
  · exact key p L[p] (List.getElem?_eq_getElem h2) (.inr (.inl h1)) h3
  · exact key i L[i] (List.getElem?_eq_getElem h2) (.inr (.inr h1)) (.inl rfl)

theorem sees_new {L : List Ev} {e : Ev} : Sees (L ++ [e]) e.thread L.length := ⟨_, e, get_new, rfl, .inl rfl⟩
theorem sees_hbn {L : List Ev} {e : Ev} {i : Nat} (h : Hbn L e i) : Sees (L ++ [e]) e.thread i :=
  ⟨_, e, get_new, rfl, .inr (hbn_hb h)⟩
theorem carr_new {L : List Ev} {e : Ev} : Carr (L ++ [e]) L.length L.length := ⟨by simp, .inl rfl⟩
theorem carr_hbn {L : List Ev} {e : Ev} {i : Nat} (h : Hbn L e i) : Carr (L ++ [e]) L.length i := ⟨by simp, .inr (hbn_hb h)⟩

theorem acc_append {L : List Ev} {e : Ev} {x : Nat × Loc} {i : Nat} :
    Acc (L ++ [e]) x i ↔ Acc L x i ∨ (i = L.length ∧ (x ∈ e.reads ∨ x ∈ e.writes)) := by
  constructor
  · rintro ⟨a, h1, h2⟩
    rcases get_cases h1 with h | ⟨h, rfl⟩
    · exact .inl ⟨a, h, h2⟩
    · exact .inr ⟨h, h2⟩
  · rintro (⟨a, h1, h2⟩ | ⟨rfl, h⟩)
    · exact ⟨a, get_append h1, h2⟩
    · exact ⟨e, get_new, h⟩

theorem wr_append {L : List Ev} {e : Ev} {x : Nat × Loc} {i : Nat} :
    Wr (L ++ [e]) x i ↔ Wr L x i ∨ (i = L.length ∧ x ∈ e.writes) := by
  constructor
  · rintro ⟨a, h1, h2⟩
    rcases get_cases h1 with h | ⟨h, rfl⟩
    · exact .inl ⟨a, h, h2⟩
    · exact .inr ⟨h, h2⟩
  · rintro (⟨a, h1, h2⟩ | ⟨rfl, h⟩)
    · exact ⟨a, get_append h1, h2⟩
    · exact ⟨e, get_new, h⟩

theorem wr_acc {L : List Ev} {x : Nat × Loc} {i : Nat} (h : Wr L x i) : Acc L x i := by
  obtain ⟨a, h1, h2⟩ := h; exact ⟨a, h1, .inr h2⟩

/-- The event that is appended races with nothing. -/
def Safe (L : List Ev) (e : Ev) : Prop :=
  ∀ x i, (x ∈ e.writes → Acc L x i → Hbn L e i) ∧ (x ∈ e.reads → Wr L x i → Hbn L e i)

theorem raceFree_append {L : List Ev} {e : Ev} (h : RaceFree L) (hs : Safe L e) : RaceFree (L ++ [e]) := by
  intro i j a b x hij ha hb hc
  rcases get_cases hb with hb' | ⟨rfl, rfl⟩
  · have ha' : L[i]? = some a := by
      rcases get_cases ha with h | ⟨h, _⟩
      · exact h
      · have := get_lt hb'; omega
    exact hb_append (h i j a b x hij ha' hb' hc)
  · have ha' : L[i]? = some a := by
      rcases get_cases ha with h | ⟨h, _⟩
      · exact h
      · omega
    apply hbn_hb
    rcases hc with ⟨h1, h2 | h2⟩ | ⟨h1, h2⟩
    · exact (hs x i).1 h2 ⟨a, ha', .inr h1⟩
    · exact (hs x i).2 h2 ⟨a, ha', h1⟩
    · exact (hs x i).1 h2 ⟨a, ha', .inl h1⟩

/-! ### One connection -/

/-- What matters of a connection: its record's fields, and the events that posted the closures about it. -/
structure D where
  worker : Option Nat
  fed : Bool
  term : Bool
  closed : Bool
  handshake : Bool
  told : Bool
  held : Bool
  born : Nat
  feedT : Nat → Nat → Prop
  setupT : Nat → Prop
  delT : Nat → Prop
  updT : Nat → Prop

/-- Writes by the threads that set a connection up. -/
def WrK (L : List Ev) (c i : Nat) : Prop := Wr L (c, .info) i ∨ Wr L (c, .worker) i ∨ Wr L (c, .cert) i

structure RI (tls : Bool) (c : Nat) (L : List Ev) (d : D) : Prop where
  evD : ∀ i, Acc L (c, .evconn) i → Sees L (.w 0) i
  dispD : ∀ i, Wr L (c, .info) i ∨ Wr L (c, .worker) i → Sees L (.w 0) i
  feed : ∀ w p i, d.feedT w p → WrK L c i ∨ Acc L (c, .sock) i → Carr L p i
  fedI : ∀ w i, d.fed = true → d.worker = some w → WrK L c i → Sees L (.w w) i
  sockW : ∀ w i, d.fed = true → d.term = false → d.worker = some w → Acc L (c, .sock) i → Sees L (.w w) i
  none : ∀ i, d.worker = none → Acc L (c, .sock) i ∨ Acc L (c, .worker) i ∨ Wr L (c, .cert) i → Sees L (.w 0) i
  del : ∀ p i, d.delT p → Acc L (c, .sock) i ∨ Wr L (c, .cert) i → Carr L p i
  setup : ∀ p i, d.setupT p → Wr L (c, .cert) i → Carr L p i
  upd : ∀ p i, d.updT p → WrK L c i → Carr L p i
  told : ∀ i, d.told = true → WrK L c i → Sees L .user i
  held : ∀ i, d.held = true → Wr L (c, .info) i ∨ (tls = false ∧ Wr L (c, .cert) i) → Sees L .user i
  born : ∀ i, Wr L (c, .info) i ∨ (tls = false ∧ Wr L (c, .cert) i) → i = d.born
  bornL : d.born < L.length
  rd : ∀ i, tls = true → Acc L (c, .cert) i → Wr L (c, .cert) i ∨ (d.fed = true ∧ d.handshake = false) ∨ d.closed = true


/-- The event races with nothing as far as connection `c` is concerned. -/
def SafeC (c : Nat) (L : List Ev) (e : Ev) : Prop :=
  ∀ l i, ((c, l) ∈ e.writes → Acc L (c, l) i → Hbn L e i) ∧ ((c, l) ∈ e.reads → Wr L (c, l) i → Hbn L e i)

theorem hbn_sees {L : List Ev} {e : Ev} {i : Nat} (h : Sees L e.thread i) : Hbn L e i := .inl h
theorem hbn_carr {L : List Ev} {e : Ev} {i p : Nat} (hp : e.waited = some p) (h : Carr L p i) : Hbn L e i := .inr (.inl ⟨p, hp, h⟩)

/-- The fields of `d'` are those of `d`. -/
structure Same (d' d : D) : Prop where
  worker : d'.worker = d.worker
  fed : d'.fed = d.fed
  term : d'.term = d.term
  closed : d'.closed = d.closed
  handshake : d'.handshake = d.handshake
  told : d'.told = d.told
  held : d'.held = d.held
  born : d'.born = d.born

/-- Only these parts of `c` are read, and only those written. -/
def Only (c : Nat) (e : Ev) (rs ws : List Loc) : Prop :=
  (∀ l, (c, l) ∈ e.reads → l ∈ rs) ∧ (∀ l, (c, l) ∈ e.writes → l ∈ ws)

theorem k_nothing {tls : Bool} {c : Nat} {L : List Ev} {e : Ev} {d d' : D} (h : RI tls c L d)
    (ho : Only c e [] [])
    (hd : Same d' d) (f1 : ∀ w p, d'.feedT w p → d.feedT w p) (f2 : ∀ p, d'.setupT p → d.setupT p) (f3 : ∀ p, d'.delT p → d.delT p)
    (f4 : ∀ p, d'.updT p → d.updT p) :
    RI tls c (L ++ [e]) d' ∧ SafeC c L e := by
  obtain ⟨s1, s2, s3, s4, s5, s6, s7, s8⟩ := hd
  obtain ⟨h1, h2, h3, h4, h5, h6, h7, h8, h9, h10, h11, h12, h13, h14⟩ := h
  obtain ⟨ho1, ho2⟩ := ho
  simp only [List.mem_cons, List.not_mem_nil, or_false, WrK] at *
  have q1 := @hbn_sees L e
  have q2 := @hbn_carr L e
  have q3 := @sees_hbn L e
  have q4 := @carr_hbn L e
  have q5 := @sees_append L e
  have q6 := @carr_append L e
  have q7 := @sees_new L e
  have q8 := @carr_new L e
  have hL : (L ++ [e]).length = L.length + 1 := by simp
  have hwa : ∀ x i, Wr L x i → Acc L x i := fun x i h => wr_acc h
  refine ⟨⟨?_, ?_, ?_, ?_, ?_, ?_, ?_, ?_, ?_, ?_, ?_, ?_, ?_, ?_⟩, ?_⟩ <;>
    (try simp only [SafeC, WrK, acc_append, wr_append]) <;> grind

theorem k_disp {tls : Bool} {c : Nat} {L : List Ev} {e : Ev} {d d' : D} (h : RI tls c L d)
    (ho : Only c e [.info, .worker] [.evconn])
    (ht : e.thread = .w 0) (hd : Same d' d) (f1 : ∀ w p, d'.feedT w p → d.feedT w p) (f2 : ∀ p, d'.setupT p → d.setupT p) (f3 : ∀ p, d'.delT p → d.delT p)
    (f4 : ∀ p, d'.updT p → d.updT p) :
    RI tls c (L ++ [e]) d' ∧ SafeC c L e := by
  obtain ⟨s1, s2, s3, s4, s5, s6, s7, s8⟩ := hd
  obtain ⟨h1, h2, h3, h4, h5, h6, h7, h8, h9, h10, h11, h12, h13, h14⟩ := h
  obtain ⟨ho1, ho2⟩ := ho
  simp only [List.mem_cons, List.not_mem_nil, or_false, WrK] at *
  have q1 := @hbn_sees L e
  have q2 := @hbn_carr L e
  have q3 := @sees_hbn L e
  have q4 := @carr_hbn L e
  have q5 := @sees_append L e
  have q6 := @carr_append L e
  have q7 := @sees_new L e
  have q8 := @carr_new L e
  have hL : (L ++ [e]).length = L.length + 1 := by simp
  have hwa : ∀ x i, Wr L x i → Acc L x i := fun x i h => wr_acc h
  refine ⟨⟨?_, ?_, ?_, ?_, ?_, ?_, ?_, ?_, ?_, ?_, ?_, ?_, ?_, ?_⟩, ?_⟩ <;>
    (try simp only [SafeC, WrK, acc_append, wr_append]) <;> grind

theorem k_sock {tls : Bool} {c : Nat} {L : List Ev} {e : Ev} {d d' : D} (h : RI tls c L d)
    (ho : Only c e [.info, .worker] [.sock])
    (w : Nat) (ht : e.thread = .w w) (hw : d.worker = some w) (hf : d.fed = true) (hk : d.term = false)
    (n1 : ∀ w p, ¬ d.feedT w p) (n2 : ∀ p, ¬ d.delT p) (hd : Same d' d) (f1 : ∀ w p, d'.feedT w p → d.feedT w p) (f2 : ∀ p, d'.setupT p → d.setupT p) (f3 : ∀ p, d'.delT p → d.delT p)
    (f4 : ∀ p, d'.updT p → d.updT p) :
    RI tls c (L ++ [e]) d' ∧ SafeC c L e := by
  obtain ⟨s1, s2, s3, s4, s5, s6, s7, s8⟩ := hd
  obtain ⟨h1, h2, h3, h4, h5, h6, h7, h8, h9, h10, h11, h12, h13, h14⟩ := h
  obtain ⟨ho1, ho2⟩ := ho
  simp only [List.mem_cons, List.not_mem_nil, or_false, WrK] at *
  have q1 := @hbn_sees L e
  have q2 := @hbn_carr L e
  have q3 := @sees_hbn L e
  have q4 := @carr_hbn L e
  have q5 := @sees_append L e
  have q6 := @carr_append L e
  have q7 := @sees_new L e
  have q8 := @carr_new L e
  have hL : (L ++ [e]).length = L.length + 1 := by simp
  have hwa : ∀ x i, Wr L x i → Acc L x i := fun x i h => wr_acc h
  refine ⟨⟨?_, ?_, ?_, ?_, ?_, ?_, ?_, ?_, ?_, ?_, ?_, ?_, ?_, ?_⟩, ?_⟩ <;>
    (try simp only [SafeC, WrK, acc_append, wr_append]) <;> grind

theorem k_ready {tls : Bool} {c : Nat} {L : List Ev} {e : Ev} {d d' : D} (h : RI tls c L d)
    (ho : Only c e [.info] [.evconn, .worker])
    (w : Nat) (ht : e.thread = .w 0) (hw : d.worker = none) (hf : d.fed = false) (hto : d.told = false) (n4 : ∀ p, ¬ d.updT p)
    (s1 : d'.worker = some w) (s2 : d'.fed = d.fed) (s3 : d'.term = d.term) (s4 : d'.closed = d.closed) (s5 : d'.handshake = d.handshake) (s6 : d'.told = d.told) (s7 : d'.held = d.held) (s8 : d'.born = d.born)
    (f1 : ∀ w p, d'.feedT w p → p = L.length) (f2 : ∀ p, d'.setupT p → d.setupT p)
    (f3 : ∀ p, d'.delT p → d.delT p) (f4 : ∀ p, d'.updT p → d.updT p) :
    RI tls c (L ++ [e]) d' ∧ SafeC c L e := by
  obtain ⟨h1, h2, h3, h4, h5, h6, h7, h8, h9, h10, h11, h12, h13, h14⟩ := h
  obtain ⟨ho1, ho2⟩ := ho
  simp only [List.mem_cons, List.not_mem_nil, or_false, WrK] at *
  have q1 := @hbn_sees L e
  have q2 := @hbn_carr L e
  have q3 := @sees_hbn L e
  have q4 := @carr_hbn L e
  have q5 := @sees_append L e
  have q6 := @carr_append L e
  have q7 := @sees_new L e
  have q8 := @carr_new L e
  have hL : (L ++ [e]).length = L.length + 1 := by simp
  have hwa : ∀ x i, Wr L x i → Acc L x i := fun x i h => wr_acc h
  refine ⟨⟨?_, ?_, ?_, ?_, ?_, ?_, ?_, ?_, ?_, ?_, ?_, ?_, ?_, ?_⟩, ?_⟩ <;>
    (try simp only [SafeC, WrK, acc_append, wr_append]) <;> grind

theorem k_feed {tls : Bool} {c : Nat} {L : List Ev} {e : Ev} {d d' : D} (h : RI tls c L d)
    (ho : Only c e [.info, .worker] [.sock])
    (w p : Nat) (ht : e.thread = .w w) (hp : e.waited = some p) (hq : d.feedT w p) (hw : d.worker = some w) (hf : d.fed = false)
    (n2 : ∀ p, ¬ d.delT p)
    (s1 : d'.worker = d.worker) (s2 : d'.fed = true) (s3 : d'.term = d.term) (s4 : d'.closed = d.closed) (s6 : d'.told = d.told) (s7 : d'.held = d.held) (s8 : d'.born = d.born)
    (f1 : ∀ w p, ¬ d'.feedT w p) (f2 : ∀ p, d'.setupT p → d.setupT p ∨ p = L.length)
    (f3 : ∀ p, d'.delT p → d.delT p) (f4 : ∀ p, d'.updT p → d.updT p) :
    RI tls c (L ++ [e]) d' ∧ SafeC c L e := by
  obtain ⟨h1, h2, h3, h4, h5, h6, h7, h8, h9, h10, h11, h12, h13, h14⟩ := h
  obtain ⟨ho1, ho2⟩ := ho
  simp only [List.mem_cons, List.not_mem_nil, or_false, WrK] at *
  have q1 := @hbn_sees L e
  have q2 := @hbn_carr L e
  have q3 := @sees_hbn L e
  have q4 := @carr_hbn L e
  have q5 := @sees_append L e
  have q6 := @carr_append L e
  have q7 := @sees_new L e
  have q8 := @carr_new L e
  have hL : (L ++ [e]).length = L.length + 1 := by simp
  have hwa : ∀ x i, Wr L x i → Acc L x i := fun x i h => wr_acc h
  refine ⟨⟨?_, ?_, ?_, ?_, ?_, ?_, ?_, ?_, ?_, ?_, ?_, ?_, ?_, ?_⟩, ?_⟩ <;>
    (try simp only [SafeC, WrK, acc_append, wr_append]) <;> grind

theorem k_setup {tls : Bool} {c : Nat} {L : List Ev} {e : Ev} {d d' : D} (h : RI tls c L d)
    (ho : Only c e [.info, .worker, .cert] [])
    (p : Nat) (ht : e.thread = .w 0) (hp : e.waited = some p) (hq : d.setupT p) (hw : d.worker ≠ none) (hf : d.fed = true) (hh : d.handshake = false)
    (s1 : d'.worker = d.worker) (s2 : d'.fed = d.fed) (s3 : d'.term = d.term) (s4 : d'.closed = d.closed) (s5 : d'.handshake = d.handshake) (s6 : d'.told = d.told) (s7 : d'.held = d.held) (s8 : d'.born = d.born)
    (f1 : ∀ w p, d'.feedT w p → d.feedT w p) (f2 : ∀ p, d'.setupT p → d.setupT p)
    (f3 : ∀ p, d'.delT p → d.delT p) (f4 : ∀ p, d'.updT p → d.updT p ∨ p = L.length) :
    RI tls c (L ++ [e]) d' ∧ SafeC c L e := by
  obtain ⟨h1, h2, h3, h4, h5, h6, h7, h8, h9, h10, h11, h12, h13, h14⟩ := h
  obtain ⟨ho1, ho2⟩ := ho
  simp only [List.mem_cons, List.not_mem_nil, or_false, WrK] at *
  have q1 := @hbn_sees L e
  have q2 := @hbn_carr L e
  have q3 := @sees_hbn L e
  have q4 := @carr_hbn L e
  have q5 := @sees_append L e
  have q6 := @carr_append L e
  have q7 := @sees_new L e
  have q8 := @carr_new L e
  have hL : (L ++ [e]).length = L.length + 1 := by simp
  have hwa : ∀ x i, Wr L x i → Acc L x i := fun x i h => wr_acc h
  refine ⟨⟨?_, ?_, ?_, ?_, ?_, ?_, ?_, ?_, ?_, ?_, ?_, ?_, ?_, ?_⟩, ?_⟩ <;>
    (try simp only [SafeC, WrK, acc_append, wr_append]) <;> grind

theorem k_user {tls : Bool} {c : Nat} {L : List Ev} {e : Ev} {d d' : D} (h : RI tls c L d)
    (ho : Only c e [.info, .worker, .cert] [])
    (p : Nat) (ht : e.thread = .user) (hp : e.waited = some p) (hq : d.updT p)
    (hx : (c, .worker) ∈ e.reads → d.worker ≠ none) (hh : (d.fed = true ∧ d.handshake = false) ∨ d.closed = true)
    (s1 : d'.worker = d.worker) (s2 : d'.fed = d.fed) (s3 : d'.term = d.term) (s4 : d'.closed = d.closed) (s5 : d'.handshake = d.handshake) (s6 : d'.told = true) (s7 : d'.held = d.held) (s8 : d'.born = d.born)
    (f1 : ∀ w p, d'.feedT w p → d.feedT w p) (f2 : ∀ p, d'.setupT p → d.setupT p)
    (f3 : ∀ p, d'.delT p → d.delT p) (f4 : ∀ p, d'.updT p → d.updT p) :
    RI tls c (L ++ [e]) d' ∧ SafeC c L e := by
  obtain ⟨h1, h2, h3, h4, h5, h6, h7, h8, h9, h10, h11, h12, h13, h14⟩ := h
  obtain ⟨ho1, ho2⟩ := ho
  simp only [List.mem_cons, List.not_mem_nil, or_false, WrK] at *
  have q1 := @hbn_sees L e
  have q2 := @hbn_carr L e
  have q3 := @sees_hbn L e
  have q4 := @carr_hbn L e
  have q5 := @sees_append L e
  have q6 := @carr_append L e
  have q7 := @sees_new L e
  have q8 := @carr_new L e
  have hL : (L ++ [e]).length = L.length + 1 := by simp
  have hwa : ∀ x i, Wr L x i → Acc L x i := fun x i h => wr_acc h
  refine ⟨⟨?_, ?_, ?_, ?_, ?_, ?_, ?_, ?_, ?_, ?_, ?_, ?_, ?_, ?_⟩, ?_⟩ <;>
    (try simp only [SafeC, WrK, acc_append, wr_append]) <;> grind

theorem k_hs {tls : Bool} {c : Nat} {L : List Ev} {e : Ev} {d d' : D} (h : RI tls c L d)
    (ho : Only c e [.info, .worker] [.sock, .cert])
    (w : Nat) (ht : e.thread = .w w) (hw : d.worker = some w) (hf : d.fed = true) (hk : d.term = false)
    (n1 : ∀ w p, ¬ d.feedT w p) (n2 : ∀ p, ¬ d.delT p) (hh : d.handshake = true) (hcl : d.closed = false) (hto : d.told = false) (n4 : ∀ p, ¬ d.updT p) (htls : tls = true)
    (s1 : d'.worker = d.worker) (s2 : d'.fed = d.fed) (s3 : d'.term = d.term) (s4 : d'.closed = d.closed) (s5 : d'.handshake = false) (s6 : d'.told = d.told) (s7 : d'.held = d.held) (s8 : d'.born = d.born)
    (f1 : ∀ w p, d'.feedT w p → d.feedT w p) (f2 : ∀ p, d'.setupT p → p = L.length)
    (f3 : ∀ p, d'.delT p → d.delT p) (f4 : ∀ p, d'.updT p → d.updT p) :
    RI tls c (L ++ [e]) d' ∧ SafeC c L e := by
  obtain ⟨h1, h2, h3, h4, h5, h6, h7, h8, h9, h10, h11, h12, h13, h14⟩ := h
  obtain ⟨ho1, ho2⟩ := ho
  simp only [List.mem_cons, List.not_mem_nil, or_false, WrK] at *
  have q1 := @hbn_sees L e
  have q2 := @hbn_carr L e
  have q3 := @sees_hbn L e
  have q4 := @carr_hbn L e
  have q5 := @sees_append L e
  have q6 := @carr_append L e
  have q7 := @sees_new L e
  have q8 := @carr_new L e
  have hL : (L ++ [e]).length = L.length + 1 := by simp
  have hwa : ∀ x i, Wr L x i → Acc L x i := fun x i h => wr_acc h
  refine ⟨⟨?_, ?_, ?_, ?_, ?_, ?_, ?_, ?_, ?_, ?_, ?_, ?_, ?_, ?_⟩, ?_⟩ <;>
    (try simp only [SafeC, WrK, acc_append, wr_append]) <;> grind

theorem k_wterm {tls : Bool} {c : Nat} {L : List Ev} {e : Ev} {d d' : D} (h : RI tls c L d)
    (ho : Only c e [.info, .worker] [.sock])
    (w : Nat) (ht : e.thread = .w w) (hw : d.worker = some w) (hf : d.fed = true) (hk : d.term = false)
    (n1 : ∀ w p, ¬ d.feedT w p)
    (s1 : d'.worker = d.worker) (s2 : d'.fed = d.fed) (s3 : d'.term = true) (s4 : d'.closed = d.closed) (s5 : d'.handshake = d.handshake) (s6 : d'.told = d.told) (s7 : d'.held = d.held) (s8 : d'.born = d.born)
    (f1 : ∀ w p, d'.feedT w p → d.feedT w p) (f2 : ∀ p, d'.setupT p → d.setupT p) (f3 : ∀ p, d'.delT p → p = L.length) (f4 : ∀ p, d'.updT p → d.updT p) :
    RI tls c (L ++ [e]) d' ∧ SafeC c L e := by
  obtain ⟨h1, h2, h3, h4, h5, h6, h7, h8, h9, h10, h11, h12, h13, h14⟩ := h
  obtain ⟨ho1, ho2⟩ := ho
  simp only [List.mem_cons, List.not_mem_nil, or_false, WrK] at *
  have q1 := @hbn_sees L e
  have q2 := @hbn_carr L e
  have q3 := @sees_hbn L e
  have q4 := @carr_hbn L e
  have q5 := @sees_append L e
  have q6 := @carr_append L e
  have q7 := @sees_new L e
  have q8 := @carr_new L e
  have hL : (L ++ [e]).length = L.length + 1 := by simp
  have hwa : ∀ x i, Wr L x i → Acc L x i := fun x i h => wr_acc h
  refine ⟨⟨?_, ?_, ?_, ?_, ?_, ?_, ?_, ?_, ?_, ?_, ?_, ?_, ?_, ?_⟩, ?_⟩ <;>
    (try simp only [SafeC, WrK, acc_append, wr_append]) <;> grind

theorem k_dterm {tls : Bool} {c : Nat} {L : List Ev} {e : Ev} {d d' : D} (h : RI tls c L d)
    (ho : Only c e [.info, .worker] [.sock, .evconn])
    (ht : e.thread = .w 0) (hw : d.worker = none) (hf : d.fed = false)
    (n1 : ∀ w p, ¬ d.feedT w p) (n2 : ∀ p, ¬ d.delT p)
    (s1 : d'.worker = d.worker) (s2 : d'.fed = d.fed) (s3 : d'.term = true) (s4 : d'.closed = true) (s5 : d'.handshake = d.handshake) (s6 : d'.told = d.told) (s7 : d'.held = d.held) (s8 : d'.born = d.born)
    (f1 : ∀ w p, d'.feedT w p → d.feedT w p) (f2 : ∀ p, d'.setupT p → d.setupT p)
    (f3 : ∀ p, d'.delT p → d.delT p) (f4 : ∀ p, d'.updT p → d.updT p ∨ p = L.length) :
    RI tls c (L ++ [e]) d' ∧ SafeC c L e := by
  obtain ⟨h1, h2, h3, h4, h5, h6, h7, h8, h9, h10, h11, h12, h13, h14⟩ := h
  obtain ⟨ho1, ho2⟩ := ho
  simp only [List.mem_cons, List.not_mem_nil, or_false, WrK] at *
  have q1 := @hbn_sees L e
  have q2 := @hbn_carr L e
  have q3 := @sees_hbn L e
  have q4 := @carr_hbn L e
  have q5 := @sees_append L e
  have q6 := @carr_append L e
  have q7 := @sees_new L e
  have q8 := @carr_new L e
  have hL : (L ++ [e]).length = L.length + 1 := by simp
  have hwa : ∀ x i, Wr L x i → Acc L x i := fun x i h => wr_acc h
  refine ⟨⟨?_, ?_, ?_, ?_, ?_, ?_, ?_, ?_, ?_, ?_, ?_, ?_, ?_, ?_⟩, ?_⟩ <;>
    (try simp only [SafeC, WrK, acc_append, wr_append]) <;> grind

theorem k_del {tls : Bool} {c : Nat} {L : List Ev} {e : Ev} {d d' : D} (h : RI tls c L d)
    (ho : Only c e [.info] [.evconn, .sock])
    (p : Nat) (ht : e.thread = .w 0) (hp : e.waited = some p) (hq : d.delT p) (hk : d.term = true) (hw : d.worker ≠ none)
    (n1 : ∀ w p, ¬ d.feedT w p)
    (s1 : d'.worker = d.worker) (s2 : d'.fed = d.fed) (s3 : d'.term = d.term) (s4 : d'.closed = true) (s5 : d'.handshake = d.handshake) (s6 : d'.told = d.told) (s7 : d'.held = d.held) (s8 : d'.born = d.born)
    (f1 : ∀ w p, d'.feedT w p → d.feedT w p) (f2 : ∀ p, d'.setupT p → d.setupT p) (f3 : ∀ p, ¬ d'.delT p) (f4 : ∀ p, d'.updT p → d.updT p ∨ p = L.length) :
    RI tls c (L ++ [e]) d' ∧ SafeC c L e := by
  obtain ⟨h1, h2, h3, h4, h5, h6, h7, h8, h9, h10, h11, h12, h13, h14⟩ := h
  obtain ⟨ho1, ho2⟩ := ho
  simp only [List.mem_cons, List.not_mem_nil, or_false, WrK] at *
  have q1 := @hbn_sees L e
  have q2 := @hbn_carr L e
  have q3 := @sees_hbn L e
  have q4 := @carr_hbn L e
  have q5 := @sees_append L e
  have q6 := @carr_append L e
  have q7 := @sees_new L e
  have q8 := @carr_new L e
  have hL : (L ++ [e]).length = L.length + 1 := by simp
  have hwa : ∀ x i, Wr L x i → Acc L x i := fun x i h => wr_acc h
  refine ⟨⟨?_, ?_, ?_, ?_, ?_, ?_, ?_, ?_, ?_, ?_, ?_, ?_, ?_, ?_⟩, ?_⟩ <;>
    (try simp only [SafeC, WrK, acc_append, wr_append]) <;> grind

theorem k_sync {tls : Bool} {c : Nat} {L : List Ev} {e : Ev} {d d' : D} (h : RI tls c L d)
    (ho : Only c e [] [])
    (ht : e.thread = .user) (hp : e.waited = some d.born)
    (s1 : d'.worker = d.worker) (s2 : d'.fed = d.fed) (s3 : d'.term = d.term) (s4 : d'.closed = d.closed) (s5 : d'.handshake = d.handshake) (s6 : d'.told = d.told) (s7 : d'.held = true) (s8 : d'.born = d.born)
    (f1 : ∀ w p, d'.feedT w p → d.feedT w p) (f2 : ∀ p, d'.setupT p → d.setupT p)
    (f3 : ∀ p, d'.delT p → d.delT p) (f4 : ∀ p, d'.updT p → d.updT p) :
    RI tls c (L ++ [e]) d' ∧ SafeC c L e := by
  obtain ⟨h1, h2, h3, h4, h5, h6, h7, h8, h9, h10, h11, h12, h13, h14⟩ := h
  obtain ⟨ho1, ho2⟩ := ho
  simp only [List.mem_cons, List.not_mem_nil, or_false, WrK] at *
  have q1 := @hbn_sees L e
  have q2 := @hbn_carr L e
  have q3 := @sees_hbn L e
  have q4 := @carr_hbn L e
  have q5 := @sees_append L e
  have q6 := @carr_append L e
  have q7 := @sees_new L e
  have q8 := @carr_new L e
  have q9 : Carr L d.born d.born := ⟨h13, .inl rfl⟩
  have hL : (L ++ [e]).length = L.length + 1 := by simp
  have hwa : ∀ x i, Wr L x i → Acc L x i := fun x i h => wr_acc h
  refine ⟨⟨?_, ?_, ?_, ?_, ?_, ?_, ?_, ?_, ?_, ?_, ?_, ?_, ?_, ?_⟩, ?_⟩ <;>
    (try simp only [SafeC, WrK, acc_append, wr_append]) <;> grind

theorem k_getInfo {tls : Bool} {c : Nat} {L : List Ev} {e : Ev} {d d' : D} (h : RI tls c L d)
    (ho : Only c e [.info] [])
    (ht : e.thread = .user) (hh : d.held = true ∨ d.told = true) (hd : Same d' d)
    (f1 : ∀ w p, d'.feedT w p → d.feedT w p) (f2 : ∀ p, d'.setupT p → d.setupT p)
    (f3 : ∀ p, d'.delT p → d.delT p) (f4 : ∀ p, d'.updT p → d.updT p) :
    RI tls c (L ++ [e]) d' ∧ SafeC c L e := by
  obtain ⟨s1, s2, s3, s4, s5, s6, s7, s8⟩ := hd
  obtain ⟨h1, h2, h3, h4, h5, h6, h7, h8, h9, h10, h11, h12, h13, h14⟩ := h
  obtain ⟨ho1, ho2⟩ := ho
  simp only [List.mem_cons, List.not_mem_nil, or_false, WrK] at *
  have q1 := @hbn_sees L e
  have q2 := @hbn_carr L e
  have q3 := @sees_hbn L e
  have q4 := @carr_hbn L e
  have q5 := @sees_append L e
  have q6 := @carr_append L e
  have q7 := @sees_new L e
  have q8 := @carr_new L e
  have hL : (L ++ [e]).length = L.length + 1 := by simp
  have hwa : ∀ x i, Wr L x i → Acc L x i := fun x i h => wr_acc h
  refine ⟨⟨?_, ?_, ?_, ?_, ?_, ?_, ?_, ?_, ?_, ?_, ?_, ?_, ?_, ?_⟩, ?_⟩ <;>
    (try simp only [SafeC, WrK, acc_append, wr_append]) <;> grind

theorem k_getCert {tls : Bool} {c : Nat} {L : List Ev} {e : Ev} {d d' : D} (h : RI tls c L d)
    (ho : Only c e [.cert] [])
    (ht : e.thread = .user) (hh : d.told = true ∨ (d.held = true ∧ tls = false))
    (hx : d.told = true → (d.fed = true ∧ d.handshake = false) ∨ d.closed = true) (hd : Same d' d)
    (f1 : ∀ w p, d'.feedT w p → d.feedT w p) (f2 : ∀ p, d'.setupT p → d.setupT p)
    (f3 : ∀ p, d'.delT p → d.delT p) (f4 : ∀ p, d'.updT p → d.updT p) :
    RI tls c (L ++ [e]) d' ∧ SafeC c L e := by
  obtain ⟨s1, s2, s3, s4, s5, s6, s7, s8⟩ := hd
  obtain ⟨h1, h2, h3, h4, h5, h6, h7, h8, h9, h10, h11, h12, h13, h14⟩ := h
  obtain ⟨ho1, ho2⟩ := ho
  simp only [List.mem_cons, List.not_mem_nil, or_false, WrK] at *
  have q1 := @hbn_sees L e
  have q2 := @hbn_carr L e
  have q3 := @sees_hbn L e
  have q4 := @carr_hbn L e
  have q5 := @sees_append L e
  have q6 := @carr_append L e
  have q7 := @sees_new L e
  have q8 := @carr_new L e
  have hL : (L ++ [e]).length = L.length + 1 := by simp
  have hwa : ∀ x i, Wr L x i → Acc L x i := fun x i h => wr_acc h
  refine ⟨⟨?_, ?_, ?_, ?_, ?_, ?_, ?_, ?_, ?_, ?_, ?_, ?_, ?_, ?_⟩, ?_⟩ <;>
    (try simp only [SafeC, WrK, acc_append, wr_append]) <;> grind

/-- A new connection. -/
theorem k_new {tls : Bool} {c : Nat} {L : List Ev} {e : Ev} {d : D} (h : ∀ l i, ¬ Acc L (c, l) i)
    (ht : e.thread = .w 0) (f1 : ∀ w p, d.feedT w p → p = L.length) (f2 : ∀ p, ¬ d.setupT p) (f3 : ∀ p, ¬ d.delT p)
    (f4 : ∀ p, ¬ d.updT p) (s2 : d.fed = false) (s6 : d.told = false) (s7 : d.held = false) (s8 : d.born = L.length)
    (hc : (c, .cert) ∈ e.writes) :
    RI tls c (L ++ [e]) d ∧ SafeC c L e := by
  have q7 := @sees_new L e
  have q8 := @carr_new L e
  have hL : (L ++ [e]).length = L.length + 1 := by simp
  have hwa : ∀ l i, ¬ Wr L (c, l) i := fun l i hw => h l i (wr_acc hw)
  refine ⟨⟨?_, ?_, ?_, ?_, ?_, ?_, ?_, ?_, ?_, ?_, ?_, ?_, ?_, ?_⟩, ?_⟩ <;>
    (try simp only [SafeC, WrK, acc_append, wr_append]) <;> grind

end Races
end Salticidae
