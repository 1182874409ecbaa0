import Verif.Model.Pool
/-!
Connections when there are fatal errors: Model/Pool with what a fatal error changes (include/salticidae/conn.h:519-533).  disp_error_cb stops the dispatcher's ThreadCall
(conn.h:520, event.h:753-760, 803-805): its closures are taken from the queue and not executed any more.  The loop of the dispatcher goes on: it accepts clients, its connection attempts
are completed, and the sockets of the connections of worker 0 are served.  The user's thread has the other workers end their loops (conn.h:521-525).

Simplified: a fatal error of another worker (528-533) is `fatal` at the moment at which the dispatcher executes the closure; the loops of the other workers may end at any moment after that (in the
code, when they execute the closure of Worker::stop); calls of the program that wait for the dispatcher (listen, connect_sync) fail then, see Model/Sys.
-/
namespace Salticidae
namespace Fatal
open Pool

structure HSt where
  p : Pool.St
  dead : Bool           -- ThreadCall::stopped of the dispatcher
  ended : Nat → Bool    -- the loop of the worker has ended

/-- A started pool. -/
def hinit : HSt := ⟨Pool.init, false, fun _ => false⟩

inductive HAct where
  | pool (a : Pool.Act)
  | fatal               -- disp_error_cb, conn.h:519-526
  | drop                -- the dispatcher takes a closure and does not execute it, event.h:753-760
  | ends (w : Nat)      -- worker w executes the closure of Worker::stop, conn.h:338-340, posted by the user's thread (522-523)
  deriving DecidableEq, Repr

/-- Does the loop run that serves the socket of connection `c`? -/
def servedBy (s : HSt) (c : Nat) : Bool := match (s.p.conn c).worker with
  | some w => !s.ended w
  | none => true

/-- What can still happen: closures of the dispatcher (also those of connect and listen) only as long as its ThreadCall is not stopped, those of another
worker and the events of its sockets only as long as its loop runs. -/
def allowed (s : HSt) : Pool.Act → Bool
  | .listen | .connect _ _ => !s.dead
  | .exec w _ => if w = 0 then !s.dead else !s.ended w
  | .readable c | .writable c | .hsDone c | .ioError c | .sendBuf c => servedBy s c
  | .accept _ | .acceptFail | .connReady _ | .connFail _ _ | .terminate _ | .user _ => true

/-- One step; `none` when it cannot happen. -/
def hstep (g : Pool.Cfg) (s : HSt) : HAct → Option HSt
  | .pool a => if allowed s a then (Pool.step g s.p a).map (fun p => { s with p := p }) else none
  | .fatal => some { s with dead := true }
  | .drop =>
    if s.dead then
      match s.p.wq 0 with
      | [] => none
      | _ :: ts => some { s with p := { s.p with wq := upd s.p.wq 0 ts } }
    else none
  | .ends w => if s.dead ∧ 1 ≤ w then some { s with ended := fun i => i == w || s.ended i } else none

/-- A run. -/
def hrun (g : Pool.Cfg) : HSt → List HAct → Option HSt
  | s, [] => some s
  | s, a :: as => (hstep g s a).bind (fun s => hrun g s as)

end Fatal
end Salticidae
