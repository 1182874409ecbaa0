import Verif.Spec.PeerNet
/-!
The heartbeat that PeerNetwork promises, told from outside: which heartbeat messages must have been sent on a connection after a
history.
-/
namespace Salticidae
namespace Spec.PeerNet
open Salticidae.PeerNet

/-- A heartbeat ping is received over `c`, which is not terminated. -/
def asks (c : Nat) (x : St × Act) : Bool :=
  match x.2 with
  | .ping d h _ => d == c && h.claimed == 0 && !(x.1.conns c).term
  | _ => false

/-- A heartbeat answer is received over `c`, which is not terminated. -/
def answers (c : Nat) (x : St × Act) : Bool :=
  match x.2 with
  | .pong d h _ => d == c && h.claimed == 0 && !(x.1.conns c).term
  | _ => false

/-- The ping timer of the peer at the other end of `c` expires. -/
def expires (c : Nat) (x : St × Act) : Bool :=
  match x.2 with
  | .pingTimer p => (x.1.conns c).peer == some p
  | _ => false

/-- The peer connected over `c` is deleted. -/
def deletes (c : Nat) (x : St × Act) : Bool :=
  match x.2 with
  | .delPeer pid => getPeerConn x.1 pid == some c
  | _ => false

/-- One step of an observer of `c`: is a round of the heartbeat under way, and if so, has the period passed and has the ping been
answered; and how many pings there must have been.  A round begins when `c` is reported connected, and when the period of the
last round has passed and its ping has been answered; there are none after `c` is reported lost or its peer is deleted. -/
def watch (g : Cfg) (c : Nat) (m : Option (Bool × Bool) × Nat) (x : St × Act) : Option (Bool × Bool) × Nat :=
  match step g x.1 x.2 with
  | none => m
  | some t =>
    if t.cbs = x.1.cbs ++ [(c, true)] then (some (false, false), m.2 + 1)
    else if t.cbs = x.1.cbs ++ [(c, false)] ∨ deletes c x = true then (none, m.2)
    else match m.1 with
      | none => m
      | some (e, w) =>
        if (e || expires c x) && (w || answers c x) then (some (false, false), m.2 + 1)
        else (some (e || expires c x, w || answers c x), m.2)

/-- How many heartbeat pings must have been sent over `c`. -/
def rounds (g : Cfg) (c : Nat) (l : List (St × Act)) : Nat := (l.foldl (watch g c) (none, 0)).2

end Spec.PeerNet
end Salticidae
