import Verif.Lemmas.PeerPlain
import Verif.Lemmas.PeerPend
/-!
C119, C120: the certificates of the peers' connections.
-/
namespace Salticidae
namespace PeerNet
open Spec.PeerNet

/-- The certificate of the connection will not change any more. -/
def Sealed (s : St) (c : Nat) : Prop := (s.conns c).active = false ∨ (s.conns c).setUp = true

theorem setup_cert (g : Cfg) (s : St) (c : Nat) (d : BitVec 16) (x : Nat) : ((setup g s c d).conns x).cert = (s.conns x).cert := by
  have hu : ∀ (f : Nat → Conn) (i : Nat) (v : Conn), v.cert = (f i).cert → ∀ j, (upd f i v j).cert = (f j).cert := by
    intro f i v h j
    simp only [upd_apply]; split
    · subst_vars; exact h
    · rfl
  unfold setup
  simp only
  repeat' split
  all_goals simp only [send, dispTerminate, setConn, setPeer]
  all_goals simp [hu]

theorem cert_step {g : Cfg} {s t : St} {a : Act} (h : step g s a = some t) {c : Nat} (hc : c < s.n) (hs : Sealed s c) :
    (t.conns c).cert = (s.conns c).cert := by
  cases a with
  | addPeer pid =>
    simp only [step, Option.some.injEq] at h; subst h
    unfold addPeer
    split
    · rfl
    · exact (upd_fix c hc).cert
  | delPeer pid =>
    simp only [step, Option.some.injEq] at h; subst h
    cases hf : find s pid with
    | none => simp only [delPeer, hf]
    | some p => exact ((del_eff s pid p hf).fix c).cert
  | setAddr pid a =>
    simp only [step, Option.some.injEq] at h; subst h
    unfold setPeerAddr; split <;> rfl
  | connPeer pid n =>
    simp only [step, Option.some.injEq] at h; subst h
    cases dial_eff s pid n with
    | err e h ht => rw [ht]
    | ok p hf ha k => exact (k.fix c).cert
  | accept a x =>
    simp only [step] at h; split at h <;> simp at h; rw [← h]
    exact (upd_fix c hc).cert
  | connect a =>
    simp only [step, Option.some.injEq] at h; rw [← h]
    exact (upd_fix c hc).cert
  | established d cert draw =>
    simp only [step] at h
    split at h
    · rename_i hg
      injection h with h
      rw [← h, setup_cert]
      simp only [setConn, upd_apply]
      split
      · rename_i e; subst e
        rcases hs with hs | hs
        · simp [hs]
        · rw [hs] at hg; exact absurd hg.2.1 (by simp)
      · rfl
    · cases h
  | ping d hs draw =>
    simp only [step] at h
    split at h
    · injection h with h; rw [← h]
      exact ((ping_fix ..).2 c).cert
    · cases h
  | pong d hs draw =>
    simp only [step] at h
    split at h
    · injection h with h; rw [← h]
      cases pong_eff g s d hs draw with
      | nop e => exact (e.fix c).cert
      | reject p _ _ e _ => exact (e.fix c).cert
      | accept p hh hn e => exact (e.fix c).cert
      | ub _ _ _ e => obtain ⟨u, k | k, e⟩ := e <;> rw [e] <;> exact (k.fix c).cert
      | wait _ _ _ _ e => exact (e.fix c).cert
      | beat _ _ _ _ _ _ e => exact (e.fix c).cert
      | beatUb _ _ _ _ _ e => obtain ⟨u, k, e⟩ := e; rw [e]; exact (k.fix c).cert
    · cases h
  | deferred draw =>
    simp only [step] at h
    split at h
    · cases h
    · injection h with h; rw [← h]
      exact ((ping_fix ..).2 c).cert
    · injection h with h; rw [← h]
  | lost d =>
    simp only [step] at h; split at h <;> simp at h; rw [← h]
    simp only [setConn, upd_apply]; split
    · subst_vars; rfl
    · rfl
  | teardown d =>
    simp only [step] at h
    split at h
    · injection h with h
      have k := (tear_eff s d).1
      rw [h] at k
      simp only [k.conns, upd_apply]; split
      · subst_vars; rfl
      · rfl
    · cases h
  | retry p =>
    simp only [step] at h
    split at h
    · injection h with h
      have k := retry_eff s p
      rw [h] at k
      exact (k.fix c (by omega)).cert
    · cases h
  | pingTimer p =>
    simp only [step] at h
    split at h
    · injection h with h
      have k := timer_eff s p
      rw [h] at k
      cases k with
      | wait _ e => exact (e.fix c).cert
      | beat _ _ _ e => exact (e.fix c).cert
      | ub _ e => obtain ⟨u, x, k, e, hx⟩ := e; rw [e]; exact (k.fix c).cert
    · cases h

/-- The certificate of `c` is settled and is that of `pid`. -/
def Proven (g : Cfg) (s : St) (c pid : Nat) : Prop := Sealed s c ∧ g.hashCert (s.conns c).cert = pid

theorem Proven.step {g : Cfg} {s t : St} {a : Act} (h : step g s a = some t) {c pid : Nat} (hc : c < s.n) (k : Proven g s c pid) : Proven g t c pid := by
  have l := life_step h
  refine ⟨?_, by rw [cert_step h hc k.1]; exact k.2⟩
  rcases k.1 with e | e
  · exact .inl (by rw [l.active c hc]; exact e)
  · exact .inr ((l.setUp c hc).mpr (.inl e))

/-- The identity that a handshake message is about is the one of the certificate. -/
theorem identity_proven {g : Cfg} (hg : g.certMode = true) {s t : St} {a : Act} (b : Basic s) (h : step g s a = some t) {pid c : Nat}
    (hi : identity g s a = some (pid, c)) : c < s.n ∧ Proven g s c pid := by
  cases a with
  | ping d x y =>
    simp only [step] at h
    split at h
    · rename_i hgd
      simp only [identity] at hi
      split at hi
      · rename_i hx
        simp only [Option.some.injEq, Prod.mk.injEq] at hi
        obtain ⟨rfl, rfl⟩ := hi
        exact ⟨hgd.1, .inl hx.2, by simp [pidOf, hg]⟩
      · cases hi
    · cases h
  | pong d x y =>
    simp only [step] at h
    split at h
    · rename_i hgd
      simp only [identity] at hi
      split at hi
      · rename_i hx
        simp only [Option.some.injEq, Prod.mk.injEq] at hi
        obtain ⟨rfl, rfl⟩ := hi
        exact ⟨hgd.1, .inr hgd.2, by simp [pidOf, hg]⟩
      · cases hi
    · cases h
  | deferred y =>
    simp only [identity] at hi
    split at hi
    · rename_i x d r hp
      split at hi
      · rename_i hx
        simp only [Option.some.injEq, Prod.mk.injEq] at hi
        obtain ⟨rfl, rfl⟩ := hi
        exact ⟨b.posted (x, some d) (by rw [hp]; exact List.mem_cons_self) d rfl, .inl hx.2, by simp [pidOf, hg]⟩
      · cases hi
    · cases hi
  | _ => simp [identity] at hi

/-- The connections of peers are those of their certificates, and so are those that say that they are a peer's, except for dialled ones whose handshake has not been completed. -/
structure Auth (g : Cfg) (s : St) : Prop where
  conn : ∀ p, p < s.m → Real s (s.peers p).conn → Proven g s (s.peers p).conn (s.peers p).id
  link : ∀ c p, (s.conns c).peer = some p → Real s c → Proven g s c (s.peers p).id ∨ ((s.conns c).active = true ∧ (c, true) ∉ s.cbs)

theorem auth_init (g : Cfg) : Auth g init := ⟨by simp [init], by simp [init, newConn]⟩

theorem report_step {g : Cfg} {s t : St} {a : Act} (h : step g s a = some t) {c : Nat} (hr : (c, true) ∈ t.cbs) :
    (c, true) ∈ s.cbs ∨ ∃ pid p, identity g s a = some (pid, c) ∧ find s pid = some p ∧ (t.conns c).peer = some p := by
  cases step_eff h with
  | quiet e => rw [e] at hr; exact .inl hr
  | dial _ _ e => rw [e] at hr; exact .inl hr
  | add _ _ e => rw [e] at hr; exact .inl hr
  | accept p d pid hi hf _ _ e _ _ _ hl =>
    rw [e] at hr
    rcases List.mem_append.mp hr with hr | hr
    · exact .inl hr
    · simp at hr; subst hr; exact .inr ⟨pid, p, hi, hf, hl⟩
  | down _ _ _ _ e =>
    rw [e] at hr
    rcases List.mem_append.mp hr with hr | hr
    · exact .inl hr
    · simp at hr

theorem auth_step {g : Cfg} (hg : g.certMode = true) {s t : St} {a : Act} (b : Basic s) (hcl : ∀ e ∈ s.cbs, e.1 < s.n) (i : Auth g s)
    (h : step g s a = some t) : Auth g t := by
  have l := life_step h
  have real : ∀ c, c < s.n → Real t c → Real s c := fun c hc hr => by
    unfold Real at *; rw [l.active c hc, l.addr c hc] at hr; exact hr
  -- a link that was there before, to a peer with the same identity
  have old : ∀ c p, (s.conns c).peer = some p → (t.conns c).peer = some p → (t.peers p).id = (s.peers p).id → Real t c →
      Proven g t c (t.peers p).id ∨ ((t.conns c).active = true ∧ (c, true) ∉ t.cbs) := by
    intro c p h1 h2 h3 h4
    have hc := (b.link c p h1).1
    rw [h3]
    rcases i.link c p h1 (real c hc h4) with k | ⟨k1, k2⟩
    · exact .inl (k.step h hc)
    · by_cases hr : (c, true) ∈ t.cbs
      · rcases report_step h hr with hr | ⟨pid, q, hi, hf, hl⟩
        · exact absurd hr k2
        · rw [h2] at hl; injection hl with hl; subst hl
          rw [(b.find_iff.mp hf).2.1]
          exact .inl ((identity_proven hg b h hi).2.step h hc)
      · exact .inr ⟨by rw [l.active c hc]; exact k1, hr⟩
  have conn : ∀ p, p < s.m → (t.peers p).conn = (s.peers p).conn → (t.peers p).id = (s.peers p).id → Real t (t.peers p).conn →
      Proven g t (t.peers p).conn (t.peers p).id := by
    intro p hp h1 h2 h3
    rw [h1] at h3 ⊢
    rw [h2]
    have hc := (b.idx p hp).1
    exact (i.conn p hp (real _ hc h3)).step h hc
  cases link_eff b h with
  | keep hm hp hl hl' hs =>
    refine ⟨fun p hpm hr => conn p (by omega) (hp p).1 (hp p).2.1 hr, fun c p hcp hr => ?_⟩
    by_cases hc : c < s.n
    · exact old c p (by rw [← hl c hc]; exact hcp) hcp (hp p).2.1 hr
    · rcases hl' c p hcp with k | k
      · exact absurd (b.link c p k).1 hc
      · refine .inr ⟨k, fun hrep => ?_⟩
        rcases report_step h hrep with hrep | ⟨pid, q, hi, _, _⟩
        · exact hc (hcl _ hrep)
        · exact hc (identity_proven hg b h hi).1
  | add pid hf hm hp hl hn =>
    refine ⟨fun p hpm hr => ?_, fun c p hcp hr => ?_⟩
    · by_cases e : p = s.m
      · subst e
        rw [hp, upd_self] at hr
        unfold Real at hr
        simp only [newPeer] at hr
        rw [hn.1, hn.2] at hr
        simp at hr
      · have e1 : t.peers p = s.peers p := by rw [hp, upd_apply, if_neg e]
        exact conn p (by omega) (by rw [e1]) (by rw [e1]) hr
    · have hcp' := hcp
      rw [hl] at hcp'
      split at hcp'
      · rename_i e; subst e
        unfold Real at hr; rw [hn.1, hn.2] at hr; simp at hr
      · have hpm := (b.link c p hcp').2
        exact old c p hcp' hcp (by rw [hp, upd_apply, if_neg (by omega)]) hr
  | fin p c pid o hi hf ht hc ho hm hq hp hl =>
    have k := identity_proven hg b h hi
    have hid : (t.peers p).id = pid := by rw [hp.2.1]; exact (b.find_iff.mp hf).2.1
    refine ⟨fun q hqm hr => ?_, fun d q hdq hr => ?_⟩
    · by_cases e : q = p
      · subst e; rw [hp.1, hid]; exact k.2.step h hc
      · exact conn q (by omega) (by rw [hq q e]) (by rw [hq q e]) hr
    · have hdq' := hdq
      rw [hl] at hdq'
      split at hdq'
      · rename_i e; subst e
        injection hdq' with e; subst e
        rw [hid]; exact .inl (k.2.step h hc)
      · split at hdq'
        · cases hdq'
        · refine old d q hdq' hdq ?_ hr
          by_cases e : q = p
          · subst e; exact hp.2.1
          · rw [hq q e]
  | del pid p ha hf hm hp hl =>
    have e1 : ∀ q, (t.peers q).conn = (s.peers q).conn ∧ (t.peers q).id = (s.peers q).id := by
      intro q; rw [hp, upd_apply]; split
      · subst_vars; exact ⟨rfl, rfl⟩
      · exact ⟨rfl, rfl⟩
    refine ⟨fun q hqm hr => conn q (by omega) (e1 q).1 (e1 q).2 hr, fun d q hdq hr => ?_⟩
    have hdq' := hdq
    rw [hl] at hdq'
    split at hdq'
    · cases hdq'
    · exact old d q hdq' hdq (e1 q).2 hr

theorem cbs_mono {g : Cfg} {s t : St} {a : Act} (h : step g s a = some t) {x : Nat × Bool} (hx : x ∈ s.cbs) : x ∈ t.cbs := by
  cases step_eff h with
  | quiet e => rw [e]; exact hx
  | dial _ _ e => rw [e]; exact hx
  | add _ _ e => rw [e]; exact hx
  | accept _ _ _ _ _ _ _ e => rw [e]; exact List.mem_append_left _ hx
  | down _ _ _ _ e => rw [e]; exact List.mem_append_left _ hx

/-- The connections of peers, placeholders apart, were reported. -/
def ToldReal (s : St) : Prop := ∀ p, p < s.m → Real s (s.peers p).conn → ((s.peers p).conn, true) ∈ s.cbs

theorem toldReal_step {g : Cfg} {s t : St} {a : Act} (b : Basic s) (i : ToldReal s) (h : step g s a = some t) : ToldReal t := by
  have l := life_step h
  have old : ∀ p, p < s.m → (t.peers p).conn = (s.peers p).conn → Real t (t.peers p).conn → ((t.peers p).conn, true) ∈ t.cbs := by
    intro p hp e hr
    rw [e] at hr ⊢
    have hc := (b.idx p hp).1
    refine cbs_mono h (i p hp ?_)
    unfold Real at *; rw [l.active _ hc, l.addr _ hc] at hr; exact hr
  intro p hp hr
  by_cases hps : p < s.m
  · cases step_eff h with
    | quiet e hconn => exact old p hps (hconn p) hr
    | dial _ _ e hconn => exact old p hps (hconn p) hr
    | add _ _ e hconn => exact old p hps (by rw [hconn, if_neg (by omega)]) hr
    | down _ _ _ _ e hconn => exact old p hps (hconn p) hr
    | accept q c pid hi hf hst ht e hconn =>
      by_cases eq : p = q
      · subst eq; rw [hconn, if_pos rfl, e]; simp
      · exact old p hps (by rw [hconn, if_neg eq]) hr
  · cases link_eff b h with
    | keep hm => omega
    | fin _ _ _ _ _ _ _ _ _ hm => omega
    | del _ _ _ _ hm => omega
    | add pid hf hm hpp hl hn =>
      have : p = s.m := by omega
      subst this
      rw [hpp, upd_self] at hr
      unfold Real at hr
      simp only [newPeer] at hr
      rw [hn.1, hn.2] at hr
      simp at hr

end PeerNet
end Salticidae
