import Verif.Lemmas.PeerSafe
import Verif.Lemmas.PeerPend
/-!
C106: which peer a connection points to.
-/
namespace Salticidae
namespace PeerNet
open Spec.PeerNet

/-- `c` is one of the two connections of a handshake of peer `q`. -/
def Side (s : St) (q c : Nat) : Prop := (s.peers q).inbound = some c ∨ (s.peers q).outbound = some c

/-- `c` is not a placeholder of add_peer. -/
def Real (s : St) (c : Nat) : Prop := (s.conns c).active = true ∨ (s.conns c).addr ≠ 0

/-- What a step does to the connections and the peers they point to. -/
inductive LinkEff (I : Option (Nat × Nat)) (s : St) (a : Act) (t : St) : Prop where
  | keep (hm : t.m = s.m)
      (hp : ∀ q, (t.peers q).conn = (s.peers q).conn ∧ (t.peers q).id = (s.peers q).id ∧ (t.peers q).freed = (s.peers q).freed)
      (hl : ∀ d, d < s.n → (t.conns d).peer = (s.conns d).peer)
      (hl' : ∀ d q, (t.conns d).peer = some q → (s.conns d).peer = some q ∨ (t.conns d).active = true)
      (hs : ∀ q c, Side t q c → Side s q c ∨ (t.conns c).active = true ∨ ((s.conns c).active = false ∧ (s.conns c).term = false ∧ c < s.n))
  | add (pid : Nat) (hf : find s pid = none) (hm : t.m = s.m + 1) (hp : t.peers = upd s.peers s.m (newPeer pid s.n))
      (hl : ∀ d, (t.conns d).peer = if d = s.n then some s.m else (s.conns d).peer)
      (hn : (t.conns s.n).active = false ∧ (t.conns s.n).addr = 0)
  | fin (p c pid : Nat) (o : Option Nat) (hi : I = some (pid, c)) (hf : find s pid = some p)
      (ht : (s.conns c).term = false) (hc : c < s.n) (ho : o = some c ∨ o = (s.peers p).outbound) (hm : t.m = s.m)
      (hq : ∀ q, q ≠ p → t.peers q = s.peers q)
      (hp : (t.peers p).conn = c ∧ (t.peers p).id = (s.peers p).id ∧ (t.peers p).freed = (s.peers p).freed ∧
        (t.peers p).inbound = none ∧ (t.peers p).outbound = none)
      (hl : ∀ d, (t.conns d).peer = if d = c then some p else if o = some d ∨ (s.peers p).conn = d then none else (s.conns d).peer)
  | del (pid p : Nat) (ha : a = .delPeer pid) (hf : find s pid = some p) (hm : t.m = s.m)
      (hp : t.peers = upd s.peers p { s.peers p with freed := true })
      (hl : ∀ d, (t.conns d).peer = if (s.peers p).conn = d ∨ (s.peers p).inbound = some d ∨ (s.peers p).outbound = some d then none
        else (s.conns d).peer)

theorem LinkEff.chg {I : Option (Nat × Nat)} {s t : St} {a : Act} {p : Nat} {x : Peer} (k : Chg s t p x) (h1 : x.conn = (s.peers p).conn)
    (h2 : x.id = (s.peers p).id) (h3 : x.freed = (s.peers p).freed)
    (h4 : ∀ c, x.inbound = some c ∨ x.outbound = some c → Side s p c ∨ (t.conns c).active = true ∨ ((s.conns c).active = false ∧ (s.conns c).term = false ∧ c < s.n)) :
    LinkEff I s a t := by
  refine .keep k.m (fun q => ?_) (fun d _ => k.link d) (fun d q h => .inl (by rw [← k.link]; exact h)) (fun q c h => ?_)
  · rw [k.peers, upd_apply]; split
    · rename_i e; subst e; exact ⟨h1, h2, h3⟩
    · exact ⟨rfl, rfl, rfl⟩
  · unfold Side at h
    rw [k.peers, upd_apply] at h
    split at h
    · rename_i e; subst e; exact h4 c h
    · exact .inl h

theorem LinkEff.quiet {I : Option (Nat × Nat)} {s t : St} {a : Act} (hm : t.m = s.m) (hp : t.peers = s.peers) (hl : ∀ d, (t.conns d).peer = (s.conns d).peer) :
    LinkEff I s a t :=
  .keep hm (fun q => by rw [hp]; exact ⟨rfl, rfl, rfl⟩) (fun d _ => hl d) (fun d q h => .inl (by rw [← hl]; exact h))
    (fun q c h => .inl (by unfold Side at h; rw [hp] at h; exact h))

theorem LinkEff.fin' {I : Option (Nat × Nat)} {s t : St} {a : Act} {p c pid : Nat} {x : Peer} (k : Fin s t p c x) (hi : I = some (pid, c))
    (hf : find s pid = some p) (ht : (s.conns c).term = false) (hc : c < s.n) (h1 : x.conn = (s.peers p).conn) (h2 : x.id = (s.peers p).id)
    (h3 : x.freed = (s.peers p).freed) (h4 : x.outbound = some c ∨ x.outbound = (s.peers p).outbound) : LinkEff I s a t := by
  refine .fin p c pid x.outbound hi hf ht hc h4 k.m (fun q h => by rw [k.peers, upd_apply, if_neg h]) ?_ (fun d => ?_)
  · rw [k.peers, upd_self]; exact ⟨rfl, h2, h3, rfl, rfl⟩
  · rw [k.link, h1]

theorem LinkEff.ub {I : Option (Nat × Nat)} {s t : St} {a : Act} (k : LinkEff I s a t) : LinkEff I s a { t with ub := true } := by
  cases k with
  | keep h1 h2 h3 h4 h5 => exact .keep h1 h2 h3 h4 h5
  | add pid h1 h2 h3 h4 h5 => exact .add pid h1 h2 h3 h4 h5
  | fin p c pid o h1 h2 h3 h4 h5 h6 h7 h8 h9 => exact .fin p c pid o h1 h2 h3 h4 h5 h6 h7 h8 h9
  | del pid p h1 h2 h3 h4 h5 => exact .del pid p h1 h2 h3 h4 h5

theorem LinkEff.posted {I : Option (Nat × Nat)} {s t : St} {a : Act} {r : List (Hs × Option Nat)} (k : LinkEff I { s with posted := r } a t) :
    LinkEff I s a t := by
  cases k with
  | keep h1 h2 h3 h4 h5 => exact .keep h1 h2 h3 h4 h5
  | add pid h1 h2 h3 h4 h5 => exact .add pid h1 h2 h3 h4 h5
  | fin p c pid o h1 h2 h3 h4 h5 h6 h7 h8 h9 => exact .fin p c pid o h1 h2 h3 h4 h5 h6 h7 h8 h9
  | del pid p h1 h2 h3 h4 h5 => exact .del pid p h1 h2 h3 h4 h5

theorem ping_link {g : Cfg} {I : Option (Nat × Nat)} {s : St} {a : Act} {c : Nat} {h : Hs} {d : BitVec 16} (hc : c < s.n)
    (hi : h.claimed ≠ 0 → (s.conns c).active = false → I = some (pidOf g (s.conns c) h.claimed, c)) :
    LinkEff I s a (pingClosure g s c h d) := by
  cases ping_eff g s c h d with
  | nop e => exact .quiet e.m e.peers e.link
  | unknown _ _ _ _ e => rw [e]; exact .quiet rfl rfl (fun d => by simp)
  | preempt p hh hst e =>
    refine .chg e rfl rfl rfl (fun d h => ?_)
    rcases h with h | h
    · simp only at h; injection h with h; subst h; exact .inr (.inr ⟨hh.passive, hh.term, hc⟩)
    · exact .inl (.inr h)
  | reject p hh hst hn e ea =>
    refine .chg e (by simp) (by simp) (by simp) (fun d h => ?_)
    rcases h with h | h
    · simp only at h; injection h with h; subst h; exact .inr (.inr ⟨hh.passive, hh.term, hc⟩)
    · exact .inl (.inr (by simpa using h))
  | accept p hh hst hn e =>
    exact .fin' e (hi hh.claimed hh.passive) hh.found hh.term hc (by simp) (by simp) (by simp) (.inr (by simp))

theorem link_eff {g : Cfg} {s t : St} {a : Act} (b : Basic s) (h : step g s a = some t) : LinkEff (identity g s a) s a t := by
  cases a with
  | addPeer pid =>
    simp only [step, Option.some.injEq] at h; subst h
    unfold addPeer
    split
    · exact .quiet rfl rfl (fun _ => rfl)
    · rename_i hf
      refine .add pid (by simpa using hf) rfl rfl (fun d => ?_) ?_
      · simp only [upd_apply]; split <;> rfl
      · simp [newConn]
  | delPeer pid =>
    simp only [step, Option.some.injEq] at h; subst h
    cases hf : find s pid with
    | none => simp only [delPeer, hf]; exact .quiet rfl rfl (fun _ => rfl)
    | some p =>
      have k := del_eff s pid p hf
      exact .del pid p rfl hf k.m k.peers k.link
  | setAddr pid a =>
    simp only [step, Option.some.injEq] at h; subst h
    unfold setPeerAddr; split
    · exact .quiet rfl rfl (fun _ => rfl)
    · exact .chg (chg_set _ _ _) rfl rfl rfl (fun _ h => .inl h)
  | connPeer pid n =>
    simp only [step, Option.some.injEq] at h; subst h
    cases dial_eff s pid n with
    | err e h ht => rw [ht]; exact .quiet rfl rfl (fun _ => rfl)
    | ok p hf ha k => exact .chg k rfl rfl rfl (by simp [redial])
  | accept a c =>
    simp only [step] at h; split at h <;> simp at h; rw [← h]
    refine .keep rfl (fun _ => ⟨rfl, rfl, rfl⟩) (fun d hd => ?_) (fun d q h => ?_) (fun _ _ h => .inl h)
    · simp only [upd_apply]; rw [if_neg (by omega)]
    · simp only [upd_apply] at h ⊢
      split at h
      · simp [newConn] at h
      · exact .inl h
  | connect a =>
    simp only [step, Option.some.injEq] at h; rw [← h]
    refine .keep rfl (fun _ => ⟨rfl, rfl, rfl⟩) (fun d hd => ?_) (fun d q h => ?_) (fun _ _ h => .inl h)
    · simp only [upd_apply]; rw [if_neg (by omega)]
    · simp only [upd_apply] at h ⊢
      split at h
      · simp [newConn] at h
      · exact .inl h
  | established c cert draw =>
    simp only [step] at h
    split at h
    · injection h with h
      have k := est_eff g s c cert draw
      rw [h] at k
      rcases k.peers with hp | ⟨p, ha, hf, hp⟩
      · exact .quiet k.m hp k.link
      · refine .keep k.m (fun q => ?_) (fun d _ => k.link d) (fun d q h => .inl (by rw [← k.link]; exact h)) (fun q c h => .inl ?_)
        · rw [hp, upd_apply]; split
          · rename_i e; subst e; simp
          · exact ⟨rfl, rfl, rfl⟩
        · unfold Side at h ⊢
          rw [hp, upd_apply] at h
          split at h
          · rename_i e; subst e; simpa using h
          · exact h
    · cases h
  | ping c hs draw =>
    simp only [step] at h
    split at h
    · rename_i hc
      injection h with h; rw [← h]
      exact ping_link hc.1 (fun h1 h2 => by simp [identity, h1, h2])
    · cases h
  | pong c hs draw =>
    simp only [step] at h
    split at h
    · rename_i hc
      injection h with h
      have e := pong_eff g s c hs draw
      rw [h] at e
      cases e with
      | nop e => exact .quiet e.m e.peers e.link
      | reject p hh _ e _ =>
        refine .chg e (by simp) (by simp) (by simp) (fun d h => ?_)
        rcases h with h | h
        · exact .inl (.inl (by simpa using h))
        · simp only at h; injection h with h; subst h; exact .inr (.inl (by rw [(e.fix c).active]; exact hh.active))
      | accept p hh hn e =>
        exact .fin' e (by simp [identity, hh.claimed, hh.active]) hh.found hh.term hc.1 (by simp) (by simp) (by simp) (.inl rfl)
      | ub p _ _ e =>
        obtain ⟨u, k | k, e⟩ := e <;> rw [e]
        · exact .quiet k.m k.peers k.link
        · exact .ub (.chg k rfl rfl rfl (fun _ h => .inl h))
      | wait _ _ _ _ e => exact .chg e rfl rfl rfl (fun _ h => .inl h)
      | beat _ _ _ _ _ _ e => exact .chg e rfl rfl rfl (fun _ h => .inl h)
      | beatUb _ _ _ _ _ e =>
        obtain ⟨u, k, e⟩ := e; rw [e]
        exact .ub (.chg k rfl rfl rfl (fun _ h => .inl h))
    · cases h
  | deferred draw =>
    simp only [step] at h
    split at h
    · cases h
    · rename_i hs c rest he
      injection h with h; rw [← h]
      have hc := b.posted _ (by rw [he]; exact List.mem_cons_self) c rfl
      exact .posted (ping_link hc (fun h1 h2 => by simp only [identity, he]; rw [if_pos ⟨h1, h2⟩]))
    · injection h with h; rw [← h]
      exact .quiet rfl rfl (fun _ => rfl)
  | lost c =>
    simp only [step] at h; split at h <;> simp at h; rw [← h]
    refine .quiet rfl rfl (fun d => ?_)
    simp only [setConn, upd_apply]
    split
    · rename_i e; rw [e]
    · rfl
  | teardown c =>
    simp only [step] at h
    split at h
    · injection h with h
      have k := tear_eff s c
      rw [h] at k
      obtain ⟨k, e⟩ := k
      have hl : ∀ d, (t.conns d).peer = (s.conns d).peer := by
        intro d
        rw [k.conns, upd_apply]
        split
        · rename_i h; rw [h]
        · rfl
      have conc : ∀ p x, t.peers = upd s.peers p x → x.conn = (s.peers p).conn → x.id = (s.peers p).id → x.freed = (s.peers p).freed →
          (∀ d, x.inbound = some d ∨ x.outbound = some d → Side s p d) → LinkEff (identity g s (.teardown c)) s (.teardown c) t := by
        intro p x hp h1 h2 h3 h4
        refine .keep k.m (fun q => ?_) (fun d _ => hl d) (fun d q h => .inl (by rw [← hl]; exact h)) (fun q c h => .inl ?_)
        · rw [hp, upd_apply]; split
          · rename_i e; subst e; exact ⟨h1, h2, h3⟩
          · exact ⟨rfl, rfl, rfl⟩
        · unfold Side at h
          rw [hp, upd_apply] at h
          split at h
          · rename_i e; subst e; exact h4 c h
          · exact h
      have hdo : ∀ p d, (disc (s.peers p)).outbound = some d → (s.peers p).outbound = some d := by
        intro p d h
        rw [disc_outbound] at h
        split at h
        · exact h
        · cases h
      cases e with
      | nobody hp hpeers hposted hcbs hub => exact .quiet k.m hpeers hl
      | ub p hp hm hf hpeers hposted hcbs hub => exact .quiet k.m hpeers hl
      | preempt p hs hp hm hf hh hpeers hposted hcbs hub =>
        refine conc p _ hpeers (by simp) (by simp) (by simp) (fun d h => ?_)
        rcases h with h | h
        · simp at h
        · exact .inr (hdo p d h)
      | backoff p hp hm hf hh hpeers hposted hcbs hub =>
        refine conc p _ hpeers (by simp) (by simp) (by simp) (fun d h => ?_)
        rcases h with h | h
        · simp at h
        · exact .inr (hdo p d (by simpa using h))
    · cases h
  | retry p =>
    simp only [step] at h
    split at h
    · rename_i hg
      injection h with h
      have k := retry_eff s p
      rw [h] at k
      refine .keep k.m (fun q => ?_) (fun d hd => by rw [k.link, if_neg (by omega)]) (fun d q h => ?_) (fun q c h => ?_)
      · rw [k.peers, upd_apply]; split
        · rename_i e; subst e; exact ⟨rfl, rfl, rfl⟩
        · exact ⟨rfl, rfl, rfl⟩
      · rw [k.link] at h
        split at h
        · rename_i e; subst e; exact .inr (by rw [k.newc.active]; rfl)
        · exact .inl h
      · unfold Side at h
        rw [k.peers, upd_apply] at h
        split at h
        · rename_i e; subst e
          rcases h with h | h
          · exact .inl (.inl h)
          · simp only at h; injection h with h; subst h; exact .inr (.inl (by rw [k.newc.active]; rfl))
        · exact .inl h
    · cases h
  | pingTimer p =>
    simp only [step] at h
    split at h
    · injection h with h
      have k := timer_eff s p
      rw [h] at k
      cases k with
      | wait _ e => exact .chg e rfl rfl rfl (fun _ h => .inl h)
      | beat _ _ _ e => exact .chg e rfl rfl rfl (fun _ h => .inl h)
      | ub _ e =>
        obtain ⟨u, x, k, e, hx, _⟩ := e; rw [e]
        refine .ub ?_
        rcases hx with hx | hx <;> subst hx <;> exact .chg k rfl rfl rfl (fun _ h => .inl h)
    · cases h

/-- Connections from outside point to the peers that use them. -/
def Pas (s : St) : Prop := ∀ c p, (s.conns c).active = false → (s.conns c).peer = some p → (s.peers p).freed = false ∧ (s.peers p).conn = c

theorem pas_init : Pas init := by intro c p; simp [init, newConn]

theorem pas_step {g : Cfg} {s t : St} {a : Act} (b : Basic s) (i : Pas s) (h : step g s a = some t) : Pas t := by
  intro d q ha hp
  have l := life_step h
  have old : ∀ q, (s.conns d).peer = some q → (s.peers q).freed = false ∧ (s.peers q).conn = d ∧ q < s.m ∧ d < s.n := by
    intro q hq
    obtain ⟨h1, h2⟩ := b.link d q hq
    rw [l.active d h1] at ha
    exact ⟨(i d q ha hq).1, (i d q ha hq).2, h2, h1⟩
  cases link_eff b h with
  | keep hm hpp hl hl' hs =>
    rcases hl' d q hp with h | h
    · rw [(hpp q).1, (hpp q).2.2]; exact ⟨(old q h).1, (old q h).2.1⟩
    · rw [ha] at h; cases h
  | add pid hf hm hpp hl hn =>
    rw [hl] at hp
    split at hp
    · rename_i e
      injection hp with hp; subst hp
      rw [hpp, upd_self]; exact ⟨rfl, e.symm⟩
    · have := old q hp
      rw [hpp, upd_apply, if_neg (by omega)]; exact ⟨this.1, this.2.1⟩
  | fin p c pid o hi hf ht hc ho hm hq hpp hl =>
    rw [hl] at hp
    split at hp
    · rename_i e
      injection hp with hp; subst hp
      exact ⟨by rw [hpp.2.2.1]; exact (b.find_iff.mp hf).2.2, by rw [hpp.1, e]⟩
    · split at hp
      · cases hp
      · rename_i h1 h2
        have := old q hp
        by_cases e : q = p
        · subst e; exact absurd (.inr this.2.1) h2
        · rw [hq q e]; exact ⟨this.1, this.2.1⟩
  | del pid p ha' hf hm hpp hl =>
    rw [hl] at hp
    split at hp
    · cases hp
    · rename_i h2
      have := old q hp
      by_cases e : q = p
      · subst e; exact absurd (.inl this.2.1) h2
      · rw [hpp, upd_apply, if_neg e]; exact ⟨this.1, this.2.1⟩

/-- In orderly histories peers and their connections point to each other. -/
structure Own (who : Nat → Nat) (s : St) : Prop where
  own : ∀ p, p < s.m → (s.peers p).freed = false → (s.conns (s.peers p).conn).peer = some p ∧
    (((s.conns (s.peers p).conn).active = false ∧ (s.conns (s.peers p).conn).addr = 0) ∨ who (s.peers p).conn = (s.peers p).id)
  side : ∀ p c, p < s.m → Side s p c → Real s c

theorem own_init (who : Nat → Nat) : Own who init := by
  refine ⟨by simp [init], by simp [init]⟩

theorem own_step {who : Nat → Nat} {g : Cfg} {s t : St} {a : Act} (b : Basic s) (o : Ord who s) (z : Placeholders s) (i : Own who s)
    (ho : Orderly who g s a) (h : step g s a = some t) : Own who t := by
  have l := life_step h
  have real : ∀ c, c < s.n → Real s c → Real t c := by
    intro c hc hr; unfold Real at hr ⊢; rw [l.active c hc, l.addr c hc]; exact hr
  have hside : ∀ q c, q < s.m → Side s q c → c < s.n := by
    intro q c hq hs
    rcases hs with h | h
    · exact (b.idx q hq).2.1 c h
    · exact (b.idx q hq).2.2.1 c h
  have hph : ∀ c, c < s.n → (s.conns c).term = false → Real s c := by
    intro c hc ht
    unfold Real
    cases ha : (s.conns c).active with
    | true => exact .inl rfl
    | false =>
      right; intro hz
      have := o.term c hc (z c hc ha hz)
      rw [ht] at this; cases this
  -- a connection in a handshake of p is not the connection of another member
  have apart : ∀ p q c, p < s.m → (s.peers p).freed = false → q < s.m → (s.peers q).freed = false → q ≠ p → who c = (s.peers p).id →
      Real s c → (s.peers q).conn ≠ c := by
    intro p q c h1 h2 h3 h4 h5 h6 h7 e
    rcases (i.own q h3 h4).2 with hz | hw
    · rw [e] at hz
      rcases h7 with h | h
      · rw [hz.1] at h; cases h
      · exact h hz.2
    · rw [e, h6] at hw
      exact h5 (b.inj h3 h1 h4 h2 hw.symm)
  cases link_eff b h with
  | keep hm hpp hl hl' hs =>
    refine ⟨fun p h1 h2 => ?_, fun p c h1 h2 => ?_⟩
    · rw [hm] at h1; rw [(hpp p).2.2] at h2
      have hn := (b.idx p h1).1
      rw [(hpp p).1, (hpp p).2.1, hl _ hn, l.active _ hn, l.addr _ hn]
      exact i.own p h1 h2
    · rw [hm] at h1
      rcases hs p c h2 with h | h | h
      · exact real c (hside p c h1 h) (i.side p c h1 h)
      · exact .inl h
      · exact real c h.2.2 (hph c h.2.2 h.2.1)
  | add pid hf hm hpp hl hn =>
    refine ⟨fun p h1 h2 => ?_, fun p c h1 h2 => ?_⟩
    · by_cases e : p = s.m
      · subst e
        rw [hpp, upd_self] at *
        simp only [newPeer]
        exact ⟨by rw [hl, if_pos rfl], .inl hn⟩
      · have h1' : p < s.m := by omega
        rw [hpp, upd_apply, if_neg e] at h2 ⊢
        have hn := (b.idx p h1').1
        rw [hl, if_neg (by omega), l.active _ hn, l.addr _ hn]
        exact i.own p h1' h2
    · unfold Side at h2
      by_cases e : p = s.m
      · subst e
        rw [hpp, upd_self] at h2; simp [newPeer] at h2
      · rw [hpp, upd_apply, if_neg e] at h2
        have h1' : p < s.m := by omega
        exact real c (hside p c h1' h2) (i.side p c h1' h2)
  | fin p c pid out hi hf ht hc hout hm hq hpp hl =>
    have hb := b.find_iff.mp hf
    have hw : who c = (s.peers p).id := by rw [hb.2.1]; exact ((ho.2.2 pid c hi).1).symm
    refine ⟨fun q h1 h2 => ?_, fun q d h1 h2 => ?_⟩
    · by_cases e : q = p
      · subst e
        rw [hpp.1, hpp.2.1]
        exact ⟨by rw [hl, if_pos rfl], .inr hw⟩
      · rw [hm] at h1
        rw [hq q e] at h2 ⊢
        have hn := (b.idx q h1).1
        rw [hl, l.active _ hn, l.addr _ hn, if_neg (apart p q c hb.1 hb.2.2 h1 h2 e hw (hph c hc ht)), if_neg]
        · exact i.own q h1 h2
        · rintro (h | h)
          · rcases hout with h' | h'
            · rw [h'] at h; injection h with h
              exact apart p q c hb.1 hb.2.2 h1 h2 e hw (hph c hc ht) h.symm
            · rw [h'] at h
              exact apart p q _ hb.1 hb.2.2 h1 h2 e (o.side p _ hb.1 (.inr h)) (i.side p _ hb.1 (.inr h)) rfl
          · have e1 := (i.own p hb.1 hb.2.2).1
            have e2 := (i.own q h1 h2).1
            rw [h, e2] at e1; injection e1 with e1; exact e e1
    · rw [hm] at h1
      by_cases e : q = p
      · subst e
        rcases h2 with h | h
        · rw [hpp.2.2.2.1] at h; cases h
        · rw [hpp.2.2.2.2] at h; cases h
      · unfold Side at h2
        rw [hq q e] at h2
        exact real d (hside q d h1 h2) (i.side q d h1 h2)
  | del pid p ha' hf hm hpp hl =>
    have hb := b.find_iff.mp hf
    refine ⟨fun q h1 h2 => ?_, fun q d h1 h2 => ?_⟩
    · by_cases e : q = p
      · subst e; rw [hpp, upd_self] at h2; cases h2
      · rw [hm] at h1
        rw [hpp, upd_apply, if_neg e] at h2 ⊢
        have hn := (b.idx q h1).1
        rw [hl, l.active _ hn, l.addr _ hn, if_neg]
        · exact i.own q h1 h2
        · rintro (h | h)
          · have e1 := (i.own p hb.1 hb.2.2).1
            have e2 := (i.own q h1 h2).1
            rw [h, e2] at e1; injection e1 with e1; exact e e1
          · exact apart p q _ hb.1 hb.2.2 h1 h2 e (o.side p _ hb.1 h) (i.side p _ hb.1 h) rfl
    · rw [hm] at h1
      unfold Side at h2
      rw [hpp, upd_apply] at h2
      split at h2
      · rename_i e; subst e; exact real d (hside q d h1 h2) (i.side q d h1 h2)
      · exact real d (hside q d h1 h2) (i.side q d h1 h2)

/-- Only set_peer_addr changes the address of a peer. -/
theorem addr_step {g : Cfg} {s t : St} {a : Act} (b : Basic s) (h : step g s a = some t) (h1 : ∀ pid v, a ≠ .setAddr pid v)
    (h2 : ∀ pid, a ≠ .addPeer pid) (q : Nat) : (t.peers q).addr = (s.peers q).addr := by
  have k := pstep b h q
  generalize t.peers q = y at k ⊢
  cases k with
  | new pid ha _ => exact absurd ha (h2 pid)
  | addr pid v ha => exact absurd ha (h1 pid v)
  | nonce d => exact getNonce_addr _ d
  | reject d i o _ _ => exact getNonce_addr _ d
  | fin d i o c _ _ => exact getNonce_addr _ d
  | takeover c h ha hp => simp [disc]; split <;> rfl
  | backoff c ha hp => simp only [backoff, disc]; split <;> split <;> split <;> rfl
  | _ => rfl

theorem book_snoc (pid : Nat) (l : List Act) (a : Act) : book pid (l ++ [a]) = (match a with
    | .addPeer q => if q = pid then (if book pid l = none then some 0 else book pid l) else book pid l
    | .delPeer q => if q = pid then none else book pid l
    | .setAddr q v => if q = pid then (book pid l).map (fun _ => v) else book pid l
    | _ => book pid l) := by
  simp only [book, List.foldl_append, List.foldl_cons, List.foldl_nil]
  cases a <;> rfl

/-- The addresses of the members are those that were set. -/
theorem book_step {g : Cfg} {s t : St} {a : Act} {l : List Act} (b : Basic s) (i : ∀ pid, (find s pid).map (fun p => (s.peers p).addr) = book pid l)
    (h : step g s a = some t) (pid : Nat) : (find t pid).map (fun p => (t.peers p).addr) = book pid (l ++ [a]) := by
  have same : (∀ pid v, a ≠ .setAddr pid v) → (∀ pid, a ≠ .addPeer pid) → (∀ pid, a ≠ .delPeer pid) →
      (find t pid).map (fun p => (t.peers p).addr) = book pid l := by
    intro h1 h2 h3
    rw [find_of_known (known_step h h2 h3), ← i pid]
    congr 1
    funext q
    exact addr_step b h h1 h2 q
  rw [book_snoc]
  cases a with
  | addPeer q =>
    clear same
    simp only [step, Option.some.injEq] at h; subst h
    have hi := i pid
    unfold addPeer
    split
    · rename_i hf
      by_cases e : q = pid
      · subst e
        cases hq : find s q with
        | none => rw [hq] at hf; simp at hf
        | some p =>
          have := i q
          rw [hq] at this
          simp only [Option.map_some] at this
          simp only [if_true, ← this, reduceCtorEq, if_false]
          show (find s q).map _ = _
          rw [hq]; rfl
      · simp only [e, if_false]; exact hi
    · rename_i hf
      simp only [Option.not_isSome_iff_eq_none] at hf
      have hfind : find ({ s with n := s.n + 1, conns := upd s.conns s.n { newConn 0 0 false with peer := some s.m, setUp := true, term := true, torn := true }, m := s.m + 1, peers := upd s.peers s.m (newPeer q s.n), known := s.known ++ [(q, s.m)] } : St) pid = if q = pid then some s.m else find s pid := by
        unfold find at hf ⊢
        simp only [List.find?_append, List.find?_cons, List.find?_nil]
        by_cases e : q = pid
        · subst e
          simp only [Option.map_eq_none_iff] at hf
          simp [hf]
        · simp [e]
      rw [hfind]
      by_cases e : q = pid
      · subst e
        have := i q
        rw [hf] at this
        simp only [Option.map_none] at this
        simp [← this, upd_self, newPeer]
      · simp only [e, if_false]
        rw [← hi]
        cases hp : find s pid with
        | none => rfl
        | some p =>
          have := (b.find_iff.mp hp).1
          simp only [Option.map_some, upd_apply]
          rw [if_neg (by omega)]
  | delPeer q =>
    clear same
    simp only [step, Option.some.injEq] at h; subst h
    have hi := i pid
    cases hf : find s q with
    | none =>
      simp only [delPeer, hf]
      by_cases e : q = pid
      · subst e
        simp only [if_true]
        show (find s q).map _ = none
        rw [hf]; rfl
      · simp only [e, if_false]; exact hi
    | some p =>
      have k := del_eff s q p hf
      have hfind : find (delPeer s q) pid = if q = pid then none else find s pid := by
        unfold find
        rw [k.known]
        by_cases e : q = pid
        · subst e
          simp
        · rw [if_neg e]
          congr 1
          rw [List.find?_filter]
          congr 1
          funext x
          by_cases hx : x.1 = pid
          · simp [hx]; exact fun h => e h.symm
          · simp [hx]
      rw [hfind]
      by_cases e : q = pid
      · simp [e]
      · simp only [e, if_false]
        rw [← hi]
        cases hp : find s pid with
        | none => rfl
        | some r =>
          simp only [Option.map_some, k.peers, upd_apply]
          split
          · rename_i e'; subst e'; rfl
          · rfl
  | setAddr q v =>
    clear same
    simp only [step, Option.some.injEq] at h; subst h
    have hi := i pid
    unfold setPeerAddr
    split
    · rename_i hf
      by_cases e : q = pid
      · subst e
        simp only [if_true, ← hi]
        show (find s q).map _ = _
        rw [hf]; rfl
      · simp only [e, if_false]; exact hi
    · rename_i p hf
      by_cases e : q = pid
      · subst e
        simp only [if_true, ← hi]
        show (find s q).map _ = _
        rw [hf]; simp [setPeer, upd_self]
      · simp only [e, if_false]
        rw [← hi]
        show (find s pid).map _ = _
        cases hp : find s pid with
        | none => rfl
        | some r =>
          have hne : r ≠ p := by
            intro h; subst h
            have h1 := (b.find_iff.mp hp).2.1
            rw [(b.find_iff.mp hf).2.1] at h1
            exact e h1
          simp [setPeer, upd_apply, hne]
  | _ => exact same (by simp) (by simp) (by simp)

end PeerNet
end Salticidae
