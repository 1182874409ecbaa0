/-
Model of ConnPool::start, stop_workers and stop, conn.h:549-589, and of gen_async_id, conn.h:161-163.

The threads run only in state 1.  stop_workers makes the dispatcher leave its loop at any point (its own
exit_tcall overtakes the closures waiting for it), then lets every other worker execute the closures
already given to it: these are steps of the machine of Model/Pool like any other, so `stop` may follow
any of its states.  Simplified: the calls start and stop are made from one thread.
-/
import Verif.Model.Pool
namespace Salticidae
namespace Pool

/-- A pool with its `system_state`. -/
structure Life where
  sys : Nat
  st : St
  starts : Nat     -- ghost: times the threads were started
  stops : Nat      -- ghost: times they were joined

inductive LAct where
  | start
  | stop
  | act (a : Act)

/-- ConnPool's constructor, conn.h:486-547. -/
def Life.init : Life := ⟨0, Pool.init, 0, 0⟩

/-- start (549-556), stop_workers (558-579) and a step of the running threads. -/
def lstep (g : Cfg) (l : Life) : LAct → Option Life
  | .start => some (if l.sys = 0 then { l with sys := 1, starts := l.starts + 1 } else l)
  | .stop => some (if l.sys = 1 then { l with sys := 2, st := finalize l.st, stops := l.stops + 1 } else l)
  | .act a => if l.sys = 1 then (step g l.st a).map (fun s => { l with st := s }) else none

def lrun (g : Cfg) : Life → List LAct → Option Life
  | l, [] => some l
  | l, a :: as => (lstep g l a).bind (fun l => lrun g l as)

/-- gen_async_id, conn.h:163: fetch_add on a uint16_t, converted to int32_t.  Gives the id and the
next value of the counter. -/
def genAsyncId (ctr : BitVec 16) : Int × BitVec 16 := (ctr.toNat, ctr + 1)

/-- The ids of `n` operations, starting with a counter `ctr`. -/
def asyncIds : BitVec 16 → Nat → List Int
  | _, 0 => []
  | ctr, n + 1 => (genAsyncId ctr).1 :: asyncIds (genAsyncId ctr).2 n

/-- The operations of a run: each takes an id and may fail; a failure is reported with the id
(recoverable_error, conn.h:166; connect, conn.h:602-612).  Gives (index of the operation, id reported). -/
def asyncErrors : BitVec 16 → Nat → List Bool → List (Nat × Int)
  | _, _, [] => []
  | ctr, i, f :: fs =>
    let (id, ctr') := genAsyncId ctr
    if f then (i, id) :: asyncErrors ctr' (i + 1) fs else asyncErrors ctr' (i + 1) fs

end Pool
end Salticidae
