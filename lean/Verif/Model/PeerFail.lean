import Verif.Model.PeerNet
/-!
Attempts to connect to a peer that fail before there is a connection: Model/PeerNet with an attempt for which the system gives no socket, or one that cannot be set up.  `_connect` throws then
(src/conn.cpp:395-402), from start_active_conn (include/salticidae/network.h:972-981), and the handler of the retry timer hands that to disp_error_cb (network.h:1208-1213), so that it is a fatal
error (conn.h:519-526): the closures of the dispatcher are not executed any more (event.h:753-760).

Simplified: as Model/Fatal and Model/PeerNet; the socket that cannot be set up is not closed (C91).
-/
namespace Salticidae
namespace PeerFail
open PeerNet

structure FSt where
  net : PeerNet.St
  dead : Bool       -- ThreadCall::stopped of the dispatcher
  fatal : Nat       -- fatal errors given to the program's error callback

/-- A started node. -/
def finit : FSt := ⟨PeerNet.init, false, 0⟩

inductive FAct where
  | net (a : PeerNet.Act)
  | fail (p : Nat)      -- the retry timer of a peer fires and there is no socket for the attempt
  deriving DecidableEq, Repr

/-- What happens without a closure of the dispatcher: a client is accepted (conn.cpp:300), a timer fires (network.h:898, 1208), a worker that still runs terminates a connection (conn.cpp:276).  The others are
closures of the dispatcher. -/
def anyway : PeerNet.Act → Bool
  | .accept _ _ | .retry _ | .pingTimer _ | .lost _ => true
  | _ => false

/-- One step; `none` when it cannot happen. -/
def fstep (g : PeerNet.Cfg) (s : FSt) : FAct → Option FSt
  | .net a => if s.dead = false ∨ anyway a = true then (PeerNet.step g s.net a).map (fun n => { s with net := n }) else none
  | .fail p =>
    if p < s.net.m ∧ (s.net.peers p).freed = false ∧ (s.net.peers p).retryArmed = true then
      -- 1209-1212: the exception passes over the call that starts the timer again
      some { net := setPeer s.net p { s.net.peers p with retryArmed := false }, dead := true, fatal := s.fatal + 1 }
    else none

/-- A run. -/
def frun (g : PeerNet.Cfg) : FSt → List FAct → Option FSt
  | s, [] => some s
  | s, a :: as => (fstep g s a).bind (fun s => frun g s as)

end PeerFail
end Salticidae
