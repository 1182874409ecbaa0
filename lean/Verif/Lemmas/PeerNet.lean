import Verif.Model.PeerNet
namespace Salticidae
namespace PeerNet

theorem upd_apply {α : Type} (f : Nat → α) (i : Nat) (v : α) (j : Nat) : upd f i v j = if j = i then v else f j := rfl
@[simp] theorem upd_self {α : Type} (f : Nat → α) (i : Nat) (v : α) : upd f i v i = v := by simp [upd]

/-- The fields of a connection that never change after its creation, and those that only its own life changes. -/
structure Conn.Fix (x y : Conn) : Prop where
  addr : x.addr = y.addr
  cert : x.cert = y.cert
  active : x.active = y.active
  manual : x.manual = y.manual
  setUp : x.setUp = y.setUp
  term : x.term = y.term
  torn : x.torn = y.torn

theorem Conn.Fix.refl (x : Conn) : Conn.Fix x x := ⟨rfl, rfl, rfl, rfl, rfl, rfl, rfl⟩
theorem Conn.Fix.trans {x y z : Conn} (h : Conn.Fix x y) (k : Conn.Fix y z) : Conn.Fix x z :=
  ⟨h.1.trans k.1, h.2.trans k.2, h.3.trans k.3, h.4.trans k.4, h.5.trans k.5, h.6.trans k.6, h.7.trans k.7⟩

/-- What an operation on links and flags leaves alone: everything but `peer`, `asked` and `out` of
connections. -/
structure Same (s t : St) : Prop where
  n : t.n = s.n
  m : t.m = s.m
  peers : t.peers = s.peers
  known : t.known = s.known
  pending : t.pending = s.pending
  posted : t.posted = s.posted
  cbs : t.cbs = s.cbs
  unk : t.unk = s.unk
  errs : t.errs = s.errs
  ub : t.ub = s.ub
  fix : ∀ c, Conn.Fix (t.conns c) (s.conns c)

theorem Same.refl (s : St) : Same s s := ⟨rfl, rfl, rfl, rfl, rfl, rfl, rfl, rfl, rfl, rfl, fun _ => .refl _⟩
theorem Same.trans {s t u : St} (h : Same s t) (k : Same t u) : Same s u :=
  ⟨k.n.trans h.n, k.m.trans h.m, k.peers.trans h.peers, k.known.trans h.known, k.pending.trans h.pending,
   k.posted.trans h.posted, k.cbs.trans h.cbs, k.unk.trans h.unk, k.errs.trans h.errs, k.ub.trans h.ub,
   fun c => (k.fix c).trans (h.fix c)⟩

theorem same_send (s : St) (c : Nat) (m : Msg) : Same s (send s c m) := by
  refine ⟨rfl, rfl, rfl, rfl, rfl, rfl, rfl, rfl, rfl, rfl, fun d => ?_⟩
  simp only [send, setConn, upd_apply]; split
  · rename_i h; subst h; exact ⟨rfl, rfl, rfl, rfl, rfl, rfl, rfl⟩
  · exact .refl _

theorem same_term (s : St) (c : Nat) : Same s (dispTerminate s c) := by
  refine ⟨rfl, rfl, rfl, rfl, rfl, rfl, rfl, rfl, rfl, rfl, fun d => ?_⟩
  simp only [dispTerminate, setConn, upd_apply]; split
  · rename_i h; subst h; exact ⟨rfl, rfl, rfl, rfl, rfl, rfl, rfl⟩
  · exact .refl _

theorem same_term? (s : St) (o : Option Nat) : Same s (dispTerminate? s o) := by
  cases o with
  | none => exact .refl _
  | some c => exact same_term s c

theorem same_unlink (s : St) (o : Option Nat) : Same s (unlink s o) := by
  cases o with
  | none => exact .refl _
  | some c =>
    refine ⟨rfl, rfl, rfl, rfl, rfl, rfl, rfl, rfl, rfl, rfl, fun d => ?_⟩
    simp only [unlink, setConn, upd_apply]; split
    · rename_i h; subst h; exact ⟨rfl, rfl, rfl, rfl, rfl, rfl, rfl⟩
    · exact .refl _

/-! Links: `(t.conns c).peer`. -/

@[simp] theorem link_send (s : St) (c d : Nat) (m : Msg) : ((send s c m).conns d).peer = (s.conns d).peer := by
  simp only [send, setConn, upd_apply]; split
  · rename_i h; subst h; rfl
  · rfl
@[simp] theorem link_term (s : St) (c d : Nat) : ((dispTerminate s c).conns d).peer = (s.conns d).peer := by
  simp only [dispTerminate, setConn, upd_apply]; split
  · rename_i h; subst h; rfl
  · rfl
@[simp] theorem link_term? (s : St) (o : Option Nat) (d : Nat) : ((dispTerminate? s o).conns d).peer = (s.conns d).peer := by
  cases o with
  | none => rfl
  | some c => exact link_term s c d
theorem link_unlink (s : St) (o : Option Nat) (d : Nat) :
    ((unlink s o).conns d).peer = if o = some d then none else (s.conns d).peer := by
  cases o with
  | none => simp [unlink]
  | some c =>
    simp only [unlink, setConn, upd_apply]
    by_cases h : d = c
    · subst h; simp
    · have : ¬ c = d := fun e => h e.symm
      simp [h, this]

/-- The peer after its handshake on `c`. -/
def finished (x : Peer) (c : Nat) : Peer := { x with
  inbound := none, outbound := none, chosen := some c, state := .connected
  pingArmed := true, pingTimerOk := some false, pongOk := some false
  retryArmed := false, curNtry := x.ntry, conn := c }

/-- The effect of finish_handshake. -/
structure Finish (s t : St) (p c : Nat) : Prop where
  n : t.n = s.n
  m : t.m = s.m
  peers : t.peers = upd s.peers p (finished (s.peers p) c)
  known : t.known = s.known
  pending : t.pending = s.pending.filter (fun e => e.1 ≠ (s.conns c).addr)
  posted : t.posted = s.posted
  cbs : t.cbs = s.cbs ++ [(c, true)]
  unk : t.unk = s.unk
  errs : t.errs = s.errs
  ub : t.ub = s.ub
  fix : ∀ d, Conn.Fix (t.conns d) (s.conns d)
  link : ∀ d, (t.conns d).peer = if d = c then some p else
    if (s.peers p).outbound = some d ∨ (s.peers p).conn = d then none else (s.conns d).peer

theorem finish_spec (s : St) (p c : Nat) : Finish s (finishHandshake s p c) p c := by
  have h1 := same_unlink s (s.peers p).outbound
  have l1 := link_unlink s (s.peers p).outbound
  generalize e1 : unlink s (s.peers p).outbound = s1 at *
  have : finishHandshake s p c = (
    let s := setPeer s1 p { s1.peers p with
      inbound := none, outbound := none, chosen := some c, state := .connected }
    let s := resetSendPing s p
    let old := (s.peers p).conn
    let s := setPeer s p { s.peers p with
      retryArmed := false, curNtry := (s.peers p).ntry, conn := c }
    let s := unlink s (some old)
    let s := setConn s c { s.conns c with peer := some p }
    { s with
      cbs := s.cbs ++ [(c, true)]
      pending := s.pending.filter (fun e => e.1 ≠ (s.conns c).addr) } : St) := by
    rw [← e1]; rfl
  rw [this]
  simp only [setPeer, resetSendPing, upd_self, send, setConn, unlink]
  rw [h1.peers]
  refine ⟨h1.n, h1.m, ?_, h1.known, ?_, h1.posted, by rw [h1.cbs], h1.unk, h1.errs, h1.ub, ?_, ?_⟩
  · funext q
    simp only [upd_apply]
    split <;> rfl
  · have := (h1.fix c).addr
    simp only [h1.pending, upd_apply]
    congr 1
    funext e
    rcases Classical.em (c = (s.peers p).conn) with h | h
    · simp [← h, this]
    · simp [h, this]
  · intro d
    refine Conn.Fix.trans ?_ (h1.fix d)
    simp only [upd_apply]
    repeat' split
    all_goals (subst_vars; first | exact ⟨rfl, rfl, rfl, rfl, rfl, rfl, rfl⟩ | (constructor <;> simp_all))
  · intro d
    have := l1 d
    simp only [upd_apply]
    grind

end PeerNet
end Salticidae
