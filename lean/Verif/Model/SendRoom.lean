import Verif.Spec.Queue
/-!
The send buffer of a connection (`Conn::send_buffer`, conn.h:85, an MPSCQueue of messages, buffer.h:120-148): how it is made and what Conn::write asks of it.  The queue itself is
Model/Queue.

Simplified: messages are numbers.
-/
namespace Salticidae
namespace SendRoom
open Queue

/-- MPMCQ_SIZE, queue.h:90. -/
def blockSize : Nat := 4096

/-- Where a connection object comes from. -/
inductive Born where
  | accepted     -- conn.cpp:322
  | dialled      -- conn.cpp:404
  | placeholder  -- made by PeerNetwork::add_peer, network.h:1176: until it is connected to, the peer has this one
  deriving DecidableEq, Repr

/-- Rounds of set_capacity's loop in a send buffer made with Config::max_send_buff_size(c): conn.cpp:323 and 405 call it, add_peer (network.h:1176-1182) does not. -/
def given (c : Nat) : Born → Nat
  | .accepted => rounds blockSize c
  | .dialled => rounds blockSize c
  | .placeholder => 0

/-- Conn::write, conn.h:144-147 (bounded unless max_send_buff_size is 0). -/
def write (c : Nat) (m : Nat) : Call Nat := .enq m (c == 0)

end SendRoom
end Salticidae
