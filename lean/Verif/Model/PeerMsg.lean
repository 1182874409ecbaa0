import Verif.Model.PeerNet
/-!
The program's messages on a PeerNetwork: Model/PeerNet with the queue of received messages and the handlers of the program.  The handlers are those of MsgNetwork (include/salticidae/network.h:201-228): PeerNetwork
adds to them the handlers of its own two messages (network.h:608-609), and changes nothing about the others.

Simplified: a message of the program is a number; whole messages (Model/ConnIO); a message is received only over a connection that is set up (Model/PoolMsg has the case before that); the queue does not refuse.
-/
namespace Salticidae
namespace PeerMsg
open PeerNet

structure MSt where
  net : PeerNet.St
  queue : List (Nat × Nat)      -- incoming_msgs: message, connection
  handed : List (Nat × Nat)     -- what the handlers were given

/-- A started node. -/
def minit : MSt := ⟨PeerNet.init, [], []⟩

inductive MAct where
  | net (a : PeerNet.Act)
  | recv (m c : Nat)        -- a worker has read a whole message, network.h:649-699
  | handle                  -- the user's loop takes the next message out of the queue
  deriving DecidableEq, Repr

/-- One step; `none` when it cannot happen. -/
def mstep (g : PeerNet.Cfg) (s : MSt) : MAct → Option MSt
  | .net a => (PeerNet.step g s.net a).map (fun n => { s with net := n })
  | .recv m c =>
    if c < s.net.n ∧ (s.net.conns c).setUp = true ∧ (s.net.conns c).term = false then some { s with queue := s.queue ++ [(m, c)] } else none
  | .handle =>
    match s.queue with
    | [] => none
    | e :: es => some { s with queue := es, handed := s.handed ++ [e] }    -- network.h:207-224

/-- A run. -/
def mrun (g : PeerNet.Cfg) : MSt → List MAct → Option MSt
  | s, [] => some s
  | s, a :: as => (mstep g s a).bind (fun s => mrun g s as)

end PeerMsg
end Salticidae
