import Verif.Lemmas.PeerSolo
/-!
Properties C54 and C55: two nodes that dial each other, or one of which dials, agree on the connection.
-/
namespace Salticidae
open PeerNet PeerPair Spec.PeerPair

/-! ### Checkers used for concrete runs -/

namespace PeerPair

def settledB (mate : Bool → Nat → Nat) (n : Net) : Bool :=
  [true, false].all fun s => (n.node s).posted.isEmpty && (List.range (n.node s).n).all fun c =>
    (next mate n s c).isNone &&
    !((((n.node s).conns c).asked || ((n.node (!s)).conns (mate s c)).term) && !((n.node s).conns c).term) &&
    !(((n.node s).conns c).term && !((n.node s).conns c).torn)

theorem settled_check {P : Pair} {mate : Bool → Nat → Nat} {n : Net} (h : settledB mate n = true) : Settled P mate n := by
  have hs : ∀ s, (n.node s).posted.isEmpty = true ∧ ∀ c, c < (n.node s).n → (next mate n s c).isNone = true ∧
      ((((n.node s).conns c).asked || ((n.node (!s)).conns (mate s c)).term) && !((n.node s).conns c).term) = false ∧
      (((n.node s).conns c).term && !((n.node s).conns c).torn) = false := by
    intro s
    simp only [settledB, List.all_cons, List.all_nil, Bool.and_true, Bool.and_eq_true, List.all_eq_true, List.mem_range,
      Bool.not_eq_true'] at h
    cases s with
    | true => exact ⟨h.1.1, fun c hc => ⟨(h.1.2 c hc).1.1, (h.1.2 c hc).1.2, (h.1.2 c hc).2⟩⟩
    | false => exact ⟨h.2.1, fun c hc => ⟨(h.2.2 c hc).1.1, (h.2.2 c hc).1.2, (h.2.2 c hc).2⟩⟩
  intro a
  cases a with
  | deliver s c draw =>
    simp only [step]
    split
    · rfl
    · rename_i m hm
      have : ¬ c < (n.node s).n := by
        intro hc
        have := ((hs s).2 c hc).1
        rw [hm] at this; cases this
      cases m <;> simp [handle, PeerNet.step, this]
  | lost s c =>
    simp only [step]
    split
    · rename_i hc
      by_cases hn : c < (n.node s).n
      · have := ((hs s).2 c hn).2.1
        have h1 : (((n.node s).conns c).asked || ((n.node (!s)).conns (mate s c)).term) = true := by simpa using hc
        rw [h1] at this
        simp only [Bool.true_and, Bool.not_eq_false'] at this
        simp [PeerNet.step, this]
      · simp [PeerNet.step, hn]
    · rfl
  | teardown s c =>
    by_cases hn : c < (n.node s).n
    · have := ((hs s).2 c hn).2.2
      by_cases ht : ((n.node s).conns c).term = true
      · rw [ht] at this
        simp only [Bool.true_and, Bool.not_eq_false'] at this
        simp [step, PeerNet.step, this]
      · simp [step, PeerNet.step, ht]
    · simp [step, PeerNet.step, hn]
  | deferred s draw =>
    have := (hs s).1
    simp only [List.isEmpty_iff] at this
    simp [step, PeerNet.step, this]

/-- Two nodes that are identified by their addresses 10 and 20. -/
def twoNodes : Pair := ⟨false, id, id, fun s => if s then 10 else 20, fun _ => 0, fun s => if s then 30 else 40⟩

def startOf (P : Pair) (pre : Bool → List PeerNet.Act) : Net :=
  ⟨fun s => ((PeerNet.run (P.cfg s) PeerNet.init (pre s)).getD PeerNet.init), fun _ _ => 0⟩

theorem start_check {P : Pair} {pre : Bool → List PeerNet.Act} (h : ∀ s, (PeerNet.run (P.cfg s) PeerNet.init (pre s)).isSome = true) :
    Start P pre (startOf P pre) := by
  refine ⟨fun s => ?_, fun _ _ => rfl⟩
  simp only [startOf]
  cases hx : PeerNet.run (P.cfg s) PeerNet.init (pre s) with
  | none => have := h s; rw [hx] at this; cases this
  | some x => rfl

/-- What is seen of a run at its end. -/
def seen (P : Pair) (mate : Bool → Nat → Nat) (n : Net) (l : List Act) : Option (Bool × Option Nat × Option Nat) :=
  (run P mate n l).map fun n => (settledB mate n, uses P n true, uses P n false)

theorem seen_spec {P : Pair} {mate : Bool → Nat → Nat} {n : Net} {l : List Act} {a b : Option Nat}
    (h : seen P mate n l = some (true, a, b)) :
    ∃ n', run P mate n l = some n' ∧ Settled P mate n' ∧ uses P n' true = a ∧ uses P n' false = b := by
  simp only [seen, Option.map_eq_some_iff, Prod.mk.injEq] at h
  obtain ⟨n', h1, h2, h3, h4⟩ := h
  exact ⟨n', h1, settled_check h2, h3, h4⟩

def calmB (P : Pair) (mate : Bool → Nat → Nat) (l : List Nat) (e : Net × Act) : Bool :=
  match e.2 with
  | .deliver s c draw =>
    match next mate e.1 s c with
    | none => true
    | some m =>
      match Spec.PeerNet.identity (P.cfg s) (e.1.node s) (handle c draw m) with
      | none => true
      | some (pid, c) =>
        match find (e.1.node s) pid with
        | none => true
        | some p => ((e.1.node s).conns c).active || decide (((e.1.node s).peers p).state ≠ .connected)
  | .teardown _ _ => [true, false].all fun s => l.all fun c => decide (1 ≤ e.1.got s c)
  | _ => true

theorem calm_check {P : Pair} {mate : Bool → Nat → Nat} {l : List Nat} {e : Net × Act} (h : calmB P mate l e = true) :
    NoTakeover P mate e.1 e.2 ∧ LateTeardown l e.1 e.2 := by
  obtain ⟨n, a⟩ := e
  cases a with
  | deliver s c draw =>
    refine ⟨fun m hm pid d p hi ha hf => ?_, trivial⟩
    have ha : ((n.node s).conns d).active = false := ha
    simp only [calmB, hm, hi, hf] at h
    rw [ha] at h
    simpa using h
  | lost s c => exact ⟨trivial, trivial⟩
  | teardown s c =>
    refine ⟨trivial, ?_⟩
    simp only [calmB, List.all_cons, List.all_nil, Bool.and_true, Bool.and_eq_true, List.all_eq_true, decide_eq_true_eq] at h
    intro s
    cases s with
    | true => exact h.1
    | false => exact h.2
  | deferred s draw => exact ⟨trivial, trivial⟩

end PeerPair

/-! ### C54: crossing dials -/

/-- C54, in full: two nodes that know each other's addresses have dialled each other; after any schedule of the messages, losses and teardowns that
leaves nothing to be done, both are connected over the same one of the two connections when their nonces differ (connection 1 of one node,
the one it dialled, is connection 2 of the other), and over none when they are equal. -/
def C54_statement : Prop :=
  ∀ (P : Pair) (ntry : Bool → Int) (draw : Bool → BitVec 16) (n n' : Net) (l : List PeerPair.Act), (∀ s, P.addr s ≠ 0) →
    Start P (fun s => crossPrefix P s (ntry s) (draw s)) n → PeerPair.run P crossMate n l = some n' → Settled P crossMate n' →
    (draw true ≠ draw false → (uses P n' true = some 1 ∧ uses P n' false = some 2) ∨ (uses P n' true = some 2 ∧ uses P n' false = some 1)) ∧
    (draw true = draw false → uses P n' true = none ∧ uses P n' false = none)

/-- C54 fails: node `true` is connected over the connection it dialled when the handshake of the other one arrives; it drops the first and accepts
the second, but the other node, which has not seen the end of the first yet, ignores the answer. At the end `true` is connected and `false` is not. -/
theorem C54_violated : ¬ C54_statement := by
  intro h
  obtain ⟨n', h1, h2, h3, h4⟩ := seen_spec (P := twoNodes) (mate := crossMate)
    (n := startOf twoNodes (fun s => crossPrefix twoNodes s (-1) (if s then 4#16 else 8#16)))
    (l := [.deliver false 2 0#16, .deliver true 1 0#16, .deliver true 2 0#16, .lost true 1, .teardown true 1, .deferred true 0#16,
      .deliver false 1 0#16, .lost false 2, .teardown false 2, .deliver false 1 0#16, .deliver true 2 0#16, .deliver false 2 0#16,
      .deliver true 1 0#16])
    (a := some 2) (b := none) (by decide +kernel)
  have := h twoNodes (fun _ => -1) (fun s => if s then 4#16 else 8#16) _ n' _ (by decide)
    (start_check (by intro s; cases s <;> decide +kernel)) h1 h2
  rw [h3, h4] at this
  have := this.1 (by decide)
  simp at this

/-- It fails also when no handshake arrives at a connected node: `true`, whose nonce is the lower one, refuses the connection that `false` dialled, and
`false` tears it down before it processes the handshake of the other connection; it then draws a new nonce, and that one loses. At the end neither is
connected. -/
theorem C54_violated_new_nonce : ¬ C54_statement := by
  intro h
  obtain ⟨n', h1, h2, h3, h4⟩ := seen_spec (P := twoNodes) (mate := crossMate)
    (n := startOf twoNodes (fun s => crossPrefix twoNodes s (-1) (if s then 4#16 else 8#16)))
    (l := [.deliver true 2 0#16, .lost true 2, .teardown true 2, .lost false 1, .teardown false 1, .deliver false 1 0#16,
      .deliver false 2 1#16, .deliver true 1 0#16, .lost true 1, .teardown true 1, .lost false 2, .teardown false 2])
    (a := none) (b := none) (by decide +kernel)
  have := h twoNodes (fun _ => -1) (fun s => if s then 4#16 else 8#16) _ n' _ (by decide)
    (start_check (by intro s; cases s <;> decide +kernel)) h1 h2
  rw [h3, h4] at this
  have := this.1 (by decide)
  simp at this

/-- C54, what holds: if no handshake arrives at a node that is connected already, and no connection is torn down before the four handshake messages have been
processed, then in every order the connection dialled by the node with the lower nonce is kept by both, and
neither end asks for its termination. Missing: the two conditions. -/
theorem C54_agree_partial (P : Pair) (ntry : Bool → Int) (draw : Bool → BitVec 16) (n n' : Net) (l : List PeerPair.Act)
    (ha : ∀ s, P.addr s ≠ 0) (hs : Start P (fun s => crossPrefix P s (ntry s) (draw s)) n)
    (hr : PeerPair.run P crossMate n l = some n')
    (hc : ∀ e ∈ PeerPair.trace P crossMate n l, NoTakeover P crossMate e.1 e.2 ∧ LateTeardown [1, 2] e.1 e.2)
    (hp : Processed [1, 2] n' ∨ Settled P crossMate n') :
    (∀ s, draw s < draw (!s) → uses P n' s = some 1 ∧ uses P n' (!s) = some 2 ∧
      ((n'.node s).conns 1).asked = false ∧ ((n'.node (!s)).conns 2).asked = false ∧
      ((n'.node s).conns 1).term = false ∧ ((n'.node (!s)).conns 2).term = false) ∧
    (draw true = draw false → uses P n' true = none ∧ uses P n' false = none) := by
  have k := inv_run (v := fun s => (draw s).toNat + 1) (by simp) ha l n n' (start_inv ha hs) hr hc
  have hp : Processed [1, 2] n' := hp.elim id (settled_processed k)
  constructor
  · intro s hlt
    have hlt : (draw s).toNat < (draw (!s)).toNat := hlt
    have w1 : Win ((draw s).toNat + 1) ((draw (!s)).toNat + 1) 1 := .inl ⟨by omega, rfl⟩
    have w2 : Win ((draw (!s)).toNat + 1) ((draw (!!s)).toNat + 1) 2 := .inr ⟨by rw [Bool.not_not]; omega, rfl⟩
    refine ⟨uses_win k s 1 w1 hp, uses_win k (!s) 2 w2 hp, (k.loc s).keep 1 w1, (k.loc (!s)).keep 2 w2, ?_, ?_⟩
    · cases ht : ((n'.node s).conns 1).term with
      | false => rfl
      | true =>
        have := (k.gone1 s ht).1
        omega
    · cases ht : ((n'.node (!s)).conns 2).term with
      | false => rfl
      | true =>
        have := (k.gone2 (!s) ht).1
        simp only [Bool.not_not] at this
        omega
  · intro he
    exact ⟨uses_none k true (by simp [he]), uses_none k false (by simp [he])⟩

/-- The hypotheses of `C54_agree_partial` are met: the connection dialled by the node with the higher nonce is refused at both ends and torn down, with
heartbeats on the other one. -/
example : ∃ n n' l, Start twoNodes (fun s => crossPrefix twoNodes s (-1) (if s then 4#16 else 8#16)) n ∧
    PeerPair.run twoNodes crossMate n l = some n' ∧ Settled twoNodes crossMate n' ∧ uses twoNodes n' true = some 1 ∧
    uses twoNodes n' false = some 2 ∧
    ∀ e ∈ PeerPair.trace twoNodes crossMate n l, NoTakeover twoNodes crossMate e.1 e.2 ∧ LateTeardown [1, 2] e.1 e.2 := by
  obtain ⟨n', h1, h2, h3, h4⟩ := seen_spec (P := twoNodes) (mate := crossMate)
    (n := startOf twoNodes (fun s => crossPrefix twoNodes s (-1) (if s then 4#16 else 8#16)))
    (l := [.deliver true 2 0#16, .lost true 2, .deliver false 1 0#16, .deliver false 2 0#16, .deliver true 1 0#16,
      .teardown true 2, .lost false 1, .teardown false 1, .deliver false 2 0#16, .deliver true 1 0#16, .deliver true 1 0#16,
      .deliver false 2 0#16])
    (a := some 1) (b := some 2) (by decide +kernel)
  refine ⟨_, n', _, start_check (by intro s; cases s <;> decide +kernel), h1, h2, h3, h4, ?_⟩
  intro e he
  refine calm_check ?_
  have : (PeerPair.trace twoNodes crossMate
    (startOf twoNodes (fun s => crossPrefix twoNodes s (-1) (if s then 4#16 else 8#16)))
    [.deliver true 2 0#16, .lost true 2, .deliver false 1 0#16, .deliver false 2 0#16, .deliver true 1 0#16,
      .teardown true 2, .lost false 1, .teardown false 1, .deliver false 2 0#16, .deliver true 1 0#16, .deliver true 1 0#16,
      .deliver false 2 0#16]).all (calmB twoNodes crossMate [1, 2]) = true := by decide +kernel
  exact List.all_eq_true.1 this e he

/-- With equal nonces both connections are refused at both ends. -/
example : seen twoNodes crossMate (startOf twoNodes (fun s => crossPrefix twoNodes s (-1) 7#16))
    [.deliver true 2 0#16, .deliver false 2 0#16, .deliver false 1 0#16, .deliver true 1 0#16, .lost true 2, .lost true 1, .lost false 1,
     .lost false 2, .teardown true 1, .teardown true 2, .teardown false 1, .teardown false 2] = some (true, none, none) := by decide +kernel

/-! ### C55: one side dials -/

/-- C55, in full: node `true` dials node `false`, which has added it without an address; after any schedule that leaves nothing to be done both are
connected over that connection. -/
def C55_statement : Prop :=
  ∀ (P : Pair) (ntry : Int) (draw : BitVec 16) (n n' : Net) (l : List PeerPair.Act), (∀ s, P.addr s ≠ 0) →
    Start P (fun s => soloPrefix P s ntry draw) n → PeerPair.run P soloMate n l = some n' → Settled P soloMate n' →
    ∀ s, uses P n' s = some 1

/-- C55 fails: with the nonce 65535 or 65536 the node that was dialled accepts the connection, reporting it to its user, and the one that dialled
refuses it. -/
theorem C55_violated : ¬ C55_statement := by
  intro h
  obtain ⟨n', h1, h2, h3, h4⟩ := seen_spec (P := twoNodes) (mate := soloMate)
    (n := startOf twoNodes (fun s => soloPrefix twoNodes s (-1) 65534#16))
    (l := [.deliver false 1 0#16, .deliver true 1 0#16, .deliver true 1 0#16, .lost true 1, .lost false 1, .teardown true 1,
      .teardown false 1, .deliver false 1 0#16])
    (a := none) (b := none) (by decide +kernel)
  have := h twoNodes (-1) 65534#16 _ n' _ (by decide)
    (start_check (by intro s; cases s <;> decide +kernel)) h1 h2 true
  rw [h3] at this
  cases this

/-- The ends disagree when both handshake messages have been processed, for both of these nonces. -/
theorem C55_violated_disagree (draw : BitVec 16) (hd : draw = 65534#16 ∨ draw = 65535#16) :
    ∃ n n', Start twoNodes (fun s => soloPrefix twoNodes s (-1) draw) n ∧
      PeerPair.run twoNodes soloMate n [.deliver false 1 0#16, .deliver true 1 0#16] = some n' ∧ Processed [1] n' ∧
      uses twoNodes n' false = some 1 ∧ uses twoNodes n' true = none := by
  have main : ∀ d : BitVec 16, (d = 65534#16 ∨ d = 65535#16) →
      ((PeerPair.run twoNodes soloMate (startOf twoNodes (fun s => soloPrefix twoNodes s (-1) d))
        [.deliver false 1 0#16, .deliver true 1 0#16]).map fun n => (uses twoNodes n false, uses twoNodes n true, n.got true 1, n.got false 1)) =
      some (some 1, none, 1, 1) ∧ ∀ s, (PeerNet.run (twoNodes.cfg s) PeerNet.init (soloPrefix twoNodes s (-1) d)).isSome = true := by
    rintro d (rfl | rfl)
    · exact ⟨by decide +kernel, by intro s; cases s <;> decide +kernel⟩
    · exact ⟨by decide +kernel, by intro s; cases s <;> decide +kernel⟩
  obtain ⟨h, hs⟩ := main draw hd
  simp only [Option.map_eq_some_iff, Prod.mk.injEq] at h
  obtain ⟨n', h1, h2, h3, h4, h5⟩ := h
  refine ⟨_, n', start_check hs, h1, ?_, h2, h3⟩
  intro s c hc
  simp only [List.mem_singleton] at hc
  subst hc
  cases s <;> omega

/-- C55, what holds: for every other nonce both ends keep the connection, in every schedule. Missing: the two nonces. -/
theorem C55_agree_partial (P : Pair) (ntry : Int) (draw : BitVec 16) (n n' : Net) (l : List PeerPair.Act) (ha : ∀ s, P.addr s ≠ 0)
    (hd : draw.toNat + 1 < 65535) (hs : Start P (fun s => soloPrefix P s ntry draw) n)
    (hr : PeerPair.run P soloMate n l = some n') (hp : Processed [1] n' ∨ Settled P soloMate n') :
    (∀ s, uses P n' s = some 1) ∧ ∀ s, ((n'.node s).conns 1).asked = false ∧ ((n'.node s).conns 1).term = false := by
  have k := solo_run (Nat.succ_ne_zero _) hd ha l n n' (solo_start ha hs) hr
  refine ⟨solo_uses k (hp.elim id (solo_settled k)), fun s => ?_⟩
  cases s with
  | true => exact ⟨k.t.asked, k.t.term⟩
  | false => exact ⟨k.f.asked, k.f.term⟩

/-- The hypotheses of `C55_agree_partial` are met. -/
example : seen twoNodes soloMate (startOf twoNodes (fun s => soloPrefix twoNodes s 3 65533#16))
    [.deliver false 1 0#16, .deliver true 1 0#16, .deliver true 1 0#16, .deliver false 1 0#16, .deliver false 1 0#16, .deliver true 1 0#16] =
    some (true, some 1, some 1) := by decide +kernel
example : Start twoNodes (fun s => soloPrefix twoNodes s 3 65533#16) (startOf twoNodes (fun s => soloPrefix twoNodes s 3 65533#16)) :=
  start_check (by intro s; cases s <;> decide +kernel)

end Salticidae
