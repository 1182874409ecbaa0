import Verif.Lemmas.PeerInv
namespace Salticidae
namespace PeerNet

theorem Basic.same {s t : St} (b : Basic s) (hn : t.n = s.n) (hm : t.m = s.m) (hp : t.peers = s.peers)
    (hk : t.known = s.known) (ho : t.posted = s.posted) (hl : ∀ d, (t.conns d).peer = (s.conns d).peer) : Basic t := by
  refine ⟨?_, ?_, ?_, ?_, ?_, ?_⟩
  · rw [hk, hm, hp]; exact b.known
  · rw [hk]; exact b.uniq
  · rw [hk, hm, hp]; exact b.live
  · intro c p; rw [hl, hn, hm]; exact b.link c p
  · rw [hm, hp, hn]; exact b.idx
  · rw [ho, hn]; exact b.posted

/-- The peer may have become `x`. -/
structure Kin (s : St) (x y : Peer) : Prop where
  id : x.id = y.id
  freed : x.freed = y.freed
  conn : x.conn < s.n
  inbound : ∀ c, x.inbound = some c → c < s.n
  outbound : ∀ c, x.outbound = some c → c < s.n
  chosen : ∀ c, x.chosen = some c → c < s.n

theorem Basic.set {s : St} (b : Basic s) {p : Nat} {x : Peer} (hx : p < s.m → Kin s x (s.peers p)) :
    Basic (setPeer s p x) := by
  refine ⟨?_, b.uniq, ?_, b.link, ?_, b.posted⟩
  · intro e he
    obtain ⟨h1, h2, h3⟩ := b.known e he
    refine ⟨h1, ?_⟩
    simp only [setPeer, upd_apply]
    split
    · rename_i h; subst h
      rw [(hx h1).id, (hx h1).freed]; exact ⟨h2, h3⟩
    · exact ⟨h2, h3⟩
  · intro q hq hf
    simp only [setPeer, upd_apply] at hf ⊢
    split
    · rename_i h; subst h
      rw [(hx hq).id]
      rw [if_pos rfl, (hx hq).freed] at hf
      exact b.live q hq hf
    · rename_i h
      rw [if_neg h] at hf
      exact b.live q hq hf
  · intro q hq
    simp only [setPeer, upd_apply]
    split
    · rename_i h; subst h
      exact ⟨(hx hq).conn, (hx hq).inbound, (hx hq).outbound, (hx hq).chosen⟩
    · exact b.idx q hq

theorem Basic.same0 {s t : St} (b : Basic s) (k : Same0 s t) : Basic t :=
  b.same k.n k.m k.peers k.known k.posted k.link

theorem Basic.chg {s t : St} (b : Basic s) {p : Nat} {x : Peer} (k : Chg s t p x) (hx : p < s.m → Kin s x (s.peers p)) :
    Basic t :=
  (b.set hx).same k.n k.m k.peers k.known k.posted k.link

theorem Basic.fin {s t : St} (b : Basic s) {p c : Nat} {x : Peer} (k : Fin s t p c x) (hc : c < s.n) (hp : p < s.m)
    (hi : x.id = (s.peers p).id) (hf : x.freed = (s.peers p).freed) : Basic t := by
  have b1 : Basic (setPeer s p (finished x c)) := b.set (fun _ =>
    ⟨hi, hf, hc, by simp [finished], by simp [finished], by simp only [finished]; intro d h; injection h with h; omega⟩)
  refine ⟨?_, ?_, ?_, ?_, ?_, ?_⟩
  · have := b1.known; simp only [setPeer] at this
    rw [k.known, k.m, k.peers]; exact this
  · rw [k.known]; exact b.uniq
  · have := b1.live; simp only [setPeer] at this
    rw [k.known, k.m, k.peers]; exact this
  · intro d q
    rw [k.link, k.n, k.m]
    split
    · intro h; injection h with h; subst_vars; exact ⟨hc, hp⟩
    · split
      · intro h; cases h
      · exact b.link d q
  · have := b1.idx; simp only [setPeer] at this
    rw [k.n, k.m, k.peers]; exact this
  · rw [k.posted, k.n]; exact b.posted

theorem Kin.refl {s : St} (b : Basic s) {p : Nat} (hp : p < s.m) : Kin s (s.peers p) (s.peers p) := by
  obtain ⟨h1, h2, h3, h4⟩ := b.idx p hp
  exact ⟨rfl, rfl, h1, h2, h3, h4⟩

theorem Basic.ping {g : Cfg} {s : St} (b : Basic s) {c : Nat} (hc : c < s.n) (h : Hs) (draw : BitVec 16) :
    Basic (pingClosure g s c h draw) := by
  cases ping_eff g s c h draw with
  | nop e => exact b.same0 e
  | unknown ht hcl ha hf e => rw [e]; exact (b.same0 (same0_term s c)).same rfl rfl rfl rfl rfl (fun d => rfl)
  | preempt p hh hs e =>
    exact b.chg e (fun hp => by
      have k := Kin.refl b hp
      exact ⟨k.id, k.freed, k.conn, by simp only; intro d h; injection h with h; omega, k.outbound, k.chosen⟩)
  | reject p hh hs hn e ea =>
    exact b.chg e (fun hp => by
      have k := Kin.refl b hp
      exact ⟨by simp, by simp, by simpa using k.conn, by simp only; intro d h; injection h with h; omega, by simpa using k.outbound, by simpa using k.chosen⟩)
  | accept p hh hs hn e =>
    exact b.fin e hc (b.find_iff.mp hh.found).1 (by simp) (by simp)

theorem Basic.pong {g : Cfg} {s : St} (b : Basic s) {c : Nat} (hc : c < s.n) (h : Hs) (draw : BitVec 16) :
    Basic (pongClosure g s c h draw) := by
  cases pong_eff g s c h draw with
  | nop e => exact b.same0 e
  | reject p hh hn e ea =>
    exact b.chg e (fun hp => by
      have k := Kin.refl b hp
      exact ⟨by simp, by simp, by simpa using k.conn, by simpa using k.inbound, by simp only; intro d h; injection h with h; omega, by simpa using k.chosen⟩)
  | accept p hh hn e =>
    exact b.fin e hc (b.find_iff.mp hh.found).1 (by simp) (by simp)
  | ub p hp hu e =>
    obtain ⟨u, k, e⟩ := e
    have bu : Basic u := by
      rcases k with k | k
      · exact b.same0 k
      · exact b.chg k (fun hp => by
          have k := Kin.refl b hp
          exact ⟨k.id, k.freed, k.conn, k.inbound, k.outbound, k.chosen⟩)
    rw [e]; exact bu.same rfl rfl rfl rfl rfl (fun _ => rfl)
  | wait p hp hf ho e =>
    exact b.chg e (fun hp => by
      have k := Kin.refl b hp
      exact ⟨k.id, k.freed, k.conn, k.inbound, k.outbound, k.chosen⟩)
  | beat p d hp hf ho hd e =>
    exact b.chg e (fun hp => by
      have k := Kin.refl b hp
      exact ⟨k.id, k.freed, k.conn, k.inbound, k.outbound, k.chosen⟩)
  | beatUb p hp hf ho hd e =>
    obtain ⟨u, k, e⟩ := e
    have bu : Basic u := b.chg k (fun hp => by
          have k := Kin.refl b hp
          exact ⟨k.id, k.freed, k.conn, k.inbound, k.outbound, k.chosen⟩)
    rw [e]; exact bu.same rfl rfl rfl rfl rfl (fun _ => rfl)

theorem Basic.step {g : Cfg} {s t : St} {a : Act} (b : Basic s) (h : step g s a = some t) : Basic t := by
  cases a with
  | addPeer pid =>
    simp only [PeerNet.step, Option.some.injEq] at h
    subst h
    unfold addPeer
    split
    · exact b.same rfl rfl rfl rfl rfl (fun _ => rfl)
    rename_i hf
    have hf : find s pid = none := by simpa using hf
    have hfn := find_none hf
    refine ⟨?_, ?_, ?_, ?_, ?_, ?_⟩
    · intro e he
      simp only [List.mem_append, List.mem_singleton] at he
      simp only [upd_apply]
      rcases he with he | he
      · have h1 := b.known e he
        have : e.2 ≠ s.m := by omega
        simp only [this, if_false]
        exact ⟨by omega, h1.2⟩
      · subst he
        simp [newPeer]
    · simp only [List.map_append, List.map_cons, List.map_nil, List.nodup_append]
      refine ⟨b.uniq, by simp, ?_⟩
      intro x hx y hy
      simp only [List.mem_singleton] at hy
      obtain ⟨e, he, hex⟩ := List.mem_map.mp hx
      have := hfn e he
      simp_all
    · intro p hp hfr
      simp only [upd_apply] at hfr ⊢
      split
      · rename_i h; subst h; simp [newPeer]
      · rename_i h
        rw [if_neg h] at hfr
        have := b.live p (by simp only at hp; omega) hfr
        simp [this]
    · intro c p
      simp only [upd_apply]
      split
      · intro h; injection h with h; omega
      · intro h; have := b.link c p h; omega
    · intro p hp
      simp only [upd_apply]
      split
      · simp [newPeer]
      · rename_i h
        obtain ⟨h1, h2, h3, h4⟩ := b.idx p (by simp only at hp; omega)
        exact ⟨by omega, fun c hc => by have := h2 c hc; omega, fun c hc => by have := h3 c hc; omega, fun c hc => by have := h4 c hc; omega⟩
    · intro e he c hc
      have := b.posted e he c hc
      simp only; omega
  | delPeer pid =>
    simp only [PeerNet.step, Option.some.injEq] at h
    subst h
    cases hf : find s pid with
    | none => simp only [delPeer, hf]; exact b.same rfl rfl rfl rfl rfl (fun _ => rfl)
    | some p =>
      have k := del_eff s pid p hf
      have hb := b.find_iff.mp hf
      generalize delPeer s pid = t at *
      refine ⟨?_, ?_, ?_, ?_, ?_, ?_⟩
      · rw [k.known, k.m, k.peers]
        intro e he
        simp only [List.mem_filter, decide_eq_true_eq] at he
        have h1 := b.known e he.1
        have : e.2 ≠ p := by
          intro h
          rw [h] at h1
          exact he.2 (by rw [← h1.2.1, hb.2.1])
        simpa [upd_apply, this] using h1
      · rw [k.known]
        exact List.Nodup.sublist ((List.filter_sublist (p := _) (l := s.known)).map _) b.uniq
      · rw [k.known, k.m, k.peers]
        intro q hq hfr
        simp only [upd_apply] at hfr ⊢
        split
        · rename_i h; subst h; simp at hfr
        · rename_i h
          rw [if_neg h] at hfr
          have h1 := b.live q hq hfr
          simp only [List.mem_filter, decide_eq_true_eq]
          refine ⟨h1, ?_⟩
          intro h2
          have := b.find_iff.mpr ⟨hq, h2, hfr⟩
          rw [hf] at this
          injection this with this
          exact h this.symm
      · intro c q
        rw [k.link, k.n, k.m]
        split
        · intro h; cases h
        · exact b.link c q
      · rw [k.n, k.m, k.peers]
        intro q hq
        simp only [upd_apply]
        split
        · rename_i h; subst h; exact b.idx q hq
        · exact b.idx q hq
      · rw [k.posted, k.n]; exact b.posted
  | setAddr pid a =>
    simp only [PeerNet.step, Option.some.injEq] at h
    subst h
    unfold setPeerAddr
    split
    · exact b.same rfl rfl rfl rfl rfl (fun _ => rfl)
    · exact b.set (fun hp => by
        have k := Kin.refl b hp
        exact ⟨k.id, k.freed, k.conn, k.inbound, k.outbound, k.chosen⟩)
  | connPeer pid ntry =>
    simp only [PeerNet.step, Option.some.injEq] at h
    subst h
    cases dial_eff s pid ntry with
    | err e h ht => rw [ht]; exact b.same rfl rfl rfl rfl rfl (fun _ => rfl)
    | ok p hf ha k =>
      exact b.chg k (fun hp => by
        have k := Kin.refl b hp
        exact ⟨k.id, k.freed, k.conn, by simp [redial], by simp [redial], k.chosen⟩)
  | accept a cert =>
    simp only [PeerNet.step] at h
    split at h
    · cases h
    injection h with h
    subst h
    refine ⟨b.known, b.uniq, b.live, ?_, ?_, ?_⟩
    · intro c p
      simp only [upd_apply]
      split
      · intro h; simp [newConn] at h
      · intro h; have := b.link c p h; omega
    · intro p hp
      obtain ⟨h1, h2, h3, h4⟩ := b.idx p hp
      exact ⟨by simp only; omega, fun c hc => by have := h2 c hc; simp only; omega, fun c hc => by have := h3 c hc; simp only; omega, fun c hc => by have := h4 c hc; simp only; omega⟩
    · intro e he c hc
      have := b.posted e he c hc
      simp only; omega
  | connect a =>
    simp only [PeerNet.step, Option.some.injEq] at h
    subst h
    refine ⟨b.known, b.uniq, b.live, ?_, ?_, ?_⟩
    · intro c p
      simp only [upd_apply]
      split
      · intro h; simp [newConn] at h
      · intro h; have := b.link c p h; omega
    · intro p hp
      obtain ⟨h1, h2, h3, h4⟩ := b.idx p hp
      exact ⟨by simp only; omega, fun c hc => by have := h2 c hc; simp only; omega, fun c hc => by have := h3 c hc; simp only; omega, fun c hc => by have := h4 c hc; simp only; omega⟩
    · intro e he c hc
      have := b.posted e he c hc
      simp only; omega
  | established c cert draw =>
    simp only [PeerNet.step] at h
    split at h
    · rename_i hc
      injection h with h
      have k := est_eff g s c cert draw
      rw [h] at k
      rcases k.peers with hp | ⟨p, ha, hf, hp⟩
      · exact b.same k.n k.m hp k.known k.posted k.link
      · exact (b.set (p := p) (x := getNonce (s.peers p) draw) (fun hp => by
          have k := Kin.refl b hp
          exact ⟨by simp, by simp, by simpa using k.conn, by simpa using k.inbound, by simpa using k.outbound, by simpa using k.chosen⟩)).same
          k.n k.m hp k.known k.posted k.link
    · cases h
  | ping c hs draw =>
    simp only [PeerNet.step] at h
    split at h
    · rename_i hc
      injection h with h
      rw [← h]; exact b.ping hc.1 hs draw
    · cases h
  | pong c hs draw =>
    simp only [PeerNet.step] at h
    split at h
    · rename_i hc
      injection h with h
      rw [← h]; exact b.pong hc.1 hs draw
    · cases h
  | deferred draw =>
    simp only [PeerNet.step] at h
    have hb : ∀ e rest, s.posted = e :: rest → Basic { s with posted := rest } := by
      intro e rest he
      refine ⟨b.known, b.uniq, b.live, b.link, b.idx, ?_⟩
      intro x hx
      exact b.posted x (by rw [he]; exact List.mem_cons_of_mem _ hx)
    split at h
    · cases h
    · rename_i hs c rest he
      injection h with h
      rw [← h]
      exact (hb _ rest he).ping (b.posted _ (by rw [he]; exact List.mem_cons_self) c rfl) hs draw
    · rename_i hs rest he
      injection h with h
      rw [← h]
      exact (hb _ rest he).same rfl rfl rfl rfl rfl (fun _ => rfl)
  | lost c =>
    simp only [PeerNet.step] at h
    split at h
    · injection h with h
      subst h
      refine b.same rfl rfl rfl rfl rfl (fun d => ?_)
      simp only [setConn, upd_apply]
      split
      · rename_i h; rw [h]
      · rfl
    · cases h
  | teardown c =>
    simp only [PeerNet.step] at h
    split at h
    rotate_left
    · cases h
    injection h with h
    have k := tear_eff s c
    rw [h] at k
    obtain ⟨k, e⟩ := k
    have hl : ∀ d, (t.conns d).peer = (s.conns d).peer := by
      intro d
      rw [k.conns, upd_apply]
      split
      · rename_i h; rw [h]
      · rfl
    have hd : ∀ p, p < s.m → Kin s (disc (s.peers p)) (s.peers p) := by
      intro p hp
      have k := Kin.refl b hp
      refine ⟨by simp, by simp, by simpa using k.conn, by simpa using k.inbound, ?_, by simpa using k.chosen⟩
      intro c
      rw [disc_outbound]
      split
      · exact k.outbound c
      · intro h; cases h
    cases e with
    | nobody hp hpeers hposted hcbs hub => exact b.same k.n k.m hpeers k.known hposted hl
    | ub p hp hm hf hpeers hposted hcbs hub => exact b.same k.n k.m hpeers k.known hposted hl
    | preempt p hs hp hm hf hh hpeers hposted hcbs hub =>
      have b1 : Basic (setPeer s p { disc (s.peers p) with preempt := none, inbound := none }) := b.set (fun hp => by
        have k := hd p hp
        exact ⟨k.id, k.freed, k.conn, by simp, k.outbound, k.chosen⟩)
      refine ⟨?_, ?_, ?_, ?_, ?_, ?_⟩
      · have := b1.known; simp only [setPeer] at this
        rw [k.known, k.m, hpeers]; exact this
      · rw [k.known]; exact b.uniq
      · have := b1.live; simp only [setPeer] at this
        rw [k.known, k.m, hpeers]; exact this
      · intro d q; rw [hl, k.n, k.m]; exact b.link d q
      · have := b1.idx; simp only [setPeer] at this
        rw [k.n, k.m, hpeers]; exact this
      · rw [hposted, k.n]
        intro e he d hd
        simp only [List.mem_append, List.mem_singleton] at he
        rcases he with he | he
        · exact b.posted e he d hd
        · subst he
          exact (b.idx p (b.link c p hp).2).2.1 d hd
    | backoff p hp hm hf hh hpeers hposted hcbs hub =>
      exact (b.set (p := p) (x := PeerNet.backoff (disc (s.peers p))) (fun hp => by
        have k := hd p hp
        exact ⟨by simp, by simp, by simpa using k.conn, by simp, by simpa using k.outbound, by simpa using k.chosen⟩)).same
        k.n k.m hpeers k.known hposted hl
  | retry p =>
    simp only [PeerNet.step] at h
    split at h
    rotate_left
    · cases h
    rename_i hp
    injection h with h
    have k := retry_eff s p
    rw [h] at k
    refine ⟨?_, ?_, ?_, ?_, ?_, ?_⟩
    · rw [k.known, k.m, k.peers]
      intro e he
      have h1 := b.known e he
      simp only [upd_apply]
      split
      · rename_i h2; rw [h2] at h1; exact ⟨h1.1 |> fun h => by omega, h1.2⟩
      · exact h1
    · rw [k.known]; exact b.uniq
    · rw [k.known, k.m, k.peers]
      intro q hq hfr
      simp only [upd_apply] at hfr ⊢
      split
      · rename_i h; subst h; rw [if_pos rfl] at hfr; exact b.live q hq hfr
      · rename_i h; rw [if_neg h] at hfr; exact b.live q hq hfr
    · intro c q
      rw [k.link, k.n, k.m]
      split
      · intro h; injection h with h; omega
      · intro h; have := b.link c q h; omega
    · rw [k.n, k.m, k.peers]
      intro q hq
      obtain ⟨h1, h2, h3, h4⟩ := b.idx q hq
      simp only [upd_apply]
      split
      · rename_i h; subst h
        exact ⟨by simp only; omega, fun c hc => by have := h2 c hc; omega, fun c hc => by simp only at hc; injection hc with hc; omega, fun c hc => by have := h4 c hc; omega⟩
      · exact ⟨by omega, fun c hc => by have := h2 c hc; omega, fun c hc => by have := h3 c hc; omega, fun c hc => by have := h4 c hc; omega⟩
    · rw [k.posted, k.n]
      intro e he c hc
      have := b.posted e he c hc
      omega
  | pingTimer p =>
    simp only [PeerNet.step] at h
    split at h
    rotate_left
    · cases h
    rename_i hp
    injection h with h
    have k := timer_eff s p
    rw [h] at k
    have kk := Kin.refl b hp.1
    cases k with
    | wait h e => exact b.chg e (fun _ => ⟨kk.id, kk.freed, kk.conn, kk.inbound, kk.outbound, kk.chosen⟩)
    | beat d h hd e => exact b.chg e (fun _ => ⟨kk.id, kk.freed, kk.conn, kk.inbound, kk.outbound, kk.chosen⟩)
    | ub h e =>
      obtain ⟨u, x, k, e, hx⟩ := e
      rw [e]
      refine (b.chg k (fun _ => ?_)).same rfl rfl rfl rfl rfl (fun _ => rfl)
      rcases hx with hx | hx <;> rw [hx] <;> exact ⟨kk.id, kk.freed, kk.conn, kk.inbound, kk.outbound, kk.chosen⟩

theorem basic_run {g : Cfg} {s t : St} (b : Basic s) {l : List Act} (h : run g s l = some t) : Basic t := by
  induction l generalizing s with
  | nil => simp only [run, Option.some.injEq] at h; rw [← h]; exact b
  | cons a l ih =>
    simp only [run, Option.bind_eq_some_iff] at h
    obtain ⟨u, h1, h2⟩ := h
    exact ih (b.step h1) h2

end PeerNet
end Salticidae
