import Verif.Lemmas.QueueCap
/-!
Operations that run one after the other.
-/
namespace Salticidae
namespace Queue
open FreeList (upd upd_apply upd_self upd_other)

variable {α : Type} [DecidableEq α]

/-- The tail block an enqueue has read and not replaced. -/
def Pc.tailOf : Pc α → Option Nat
  | .e2 _ _ t | .e5 _ _ t | .e6 _ _ t | .e7 _ _ t => some t
  | _ => none

/-- The block a thread has taken and not linked. -/
def Pc.privOf : Pc α → Option Nat
  | .e8 _ _ _ n | .e9 _ _ _ n | .e10 _ _ _ n | .e11 _ _ _ n => some n
  | .w4 _ _ n | .w5 _ _ n | .w6 _ _ n | .w7 _ n => some n
  | _ => none

/-- In pop. -/
def Pc.isPop : Pc α → Bool
  | .e7 _ _ _ | .w3 _ _ => true
  | _ => false

def againK : FreeList.K → Bool
  | .again => true
  | _ => false

def popF : FreeList.Pc → Bool
  | .pop1 | .pop2 _ | .pop3 _ _ | .pop4 _ | .pop5 _ _ => true
  | .rel _ _ k | .put1 _ k | .put2 _ _ k | .put3 _ _ k | .put4 _ k => againK k
  | _ => false

/-- What holds of the thread whose turn it is. -/
structure Solo (s : St α) (i : Nat) : Prop where
  tail : ∀ t, (s.pc i).tailOf = some t → t = s.qtail
  head : ∀ h, s.pc i = .m2 h → h = s.qhead
  empty : ∀ e u t, s.pc i = .e7 e u t → s.fl.pc i = .ret .empty → s.fl.list = []
  mark : ∀ e u t n, s.pc i = .e13 e u t n → ∃ r, s.fl.pc i = .ret r
  pop : popF (s.fl.pc i) = true → (s.pc i).isPop = true
  own : ∀ u j, s.stat u = .priv j → j = i ∧ ((s.pc i).privOf = some u ∨ ((s.pc i).isPop = true ∧ gotF (s.fl.pc i) = some u))

structure Turn (s : St α) (i : Nat) : Prop extends Solo s i where
  one : ∀ j, j ≠ i → Idle s j

theorem call_pc (s : FreeList.St) (i : Nat) (op : FreeList.Op) : (FreeList.call s i op).pc i = match op with
    | .new => .ret (.popped s.alloc) | .ref u => .ref1 u | .push u => .push u | .release u => .rel u false .ret | .pop => .pop1 := by
  cases op <;> simp only [FreeList.call, FreeList.St.setPc, FreeList.St.setPhase] <;> (try split) <;> simp [upd_self]

set_option maxHeartbeats 4000000 in
theorem local_solo {B : Nat} {s s' : St α} {i : Nat} {ch : Bool} {r : FreeList.Res} (k : Solo s i) (hr : s.fl.pc i = .ret r)
    (h : localStep B s i ch r = some s') : Solo s' i := by
  obtain ⟨k1, k2, k3, k4, k5, k6⟩ := k
  simp only [localStep] at h
  cases hp : s.pc i <;> rw [hp] at k1 k2 k3 k4 k5 k6 <;> rw [hr] at k3 k4 k5 k6 <;>
    simp only [hp, enqStep, deqStep, rewStep, mpmcStep, addStep, Option.none_or, Option.or_none, Option.some_or, gotBlk] at h
  all_goals (repeat' split at h)
  all_goals first
    | (cases h; done)
    | (cases h
       simp only [Pc.tailOf, Pc.privOf, Pc.isPop] at k1 k6
       constructor <;> simp only [St.ret, St.setPc, St.rcd, St.setBlk, St.setStat, St.call, upd_self, call_pc, FreeList.St.setFreed, hr]
       all_goals grind [Pc.tailOf, Pc.privOf, Pc.isPop, popF, againK, gotF, gotK, upd_apply])

end Queue
end Salticidae
