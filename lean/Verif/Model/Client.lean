/-
Model of ClientNetwork, include/salticidae/network.h:272-311 and 1369-1414: the map from addresses to
connections, kept by the dispatcher.

The history is the order in which the dispatcher sets up and tears down connections; addresses and
connections are numbers.  Writing to the connection found is Model/ConnIO.  Simplified: `send_msg` is
called by the dispatcher or while the dispatcher is idle (the map is not locked), as `send_msg_deferred` does.
-/
namespace Salticidae
namespace Client

/-- What the dispatcher does with a connection. -/
inductive Ev where
  | setup (c : Nat)
  | teardown (c : Nat)
  deriving DecidableEq, Repr

/-- `addr2conn`, network.h:280. -/
abbrev Map := List (Nat × Nat)

/-- `unordered_map::erase(key)`. -/
def erase (m : Map) (a : Nat) : Map := m.filter (fun e => e.1 ≠ a)

/-- `unordered_map::find`. -/
def lookup (m : Map) (a : Nat) : Option Nat := (m.find? (fun e => e.1 = a)).map (·.2)

/-- `unordered_map::insert`: nothing happens when the key is present. -/
def insert (m : Map) (a c : Nat) : Map := if (lookup m a).isSome then m else m ++ [(a, c)]

/-- on_dispatcher_setup, network.h:1370-1378, and on_dispatcher_teardown, 1381-1385; `addr c` is
`conn->get_addr()`. -/
def step (addr : Nat → Nat) (m : Map) : Ev → Map
  | .setup c => insert (erase m (addr c)) (addr c) c
  | .teardown c => erase m (addr c)

/-- The map after a history. -/
def run (addr : Nat → Nat) (h : List Ev) : Map := h.foldl (step addr) []

/-- `_send_msg`, network.h:1409-1414: the connection written to, or SALTI_ERROR_CLIENT_NOT_EXIST. -/
inductive Sent where
  | clientNotExist
  | to (c : Nat)
  deriving DecidableEq, Repr
def sendMsg (m : Map) (a : Nat) : Sent :=
  match lookup m a with
  | none => .clientNotExist
  | some c => .to c

end Client
end Salticidae
