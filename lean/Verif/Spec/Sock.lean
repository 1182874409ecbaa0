import Verif.Model.Sock
/-!
What a history of calls and of failures of the system says about descriptors and reports.
-/
namespace Salticidae
namespace Spec.Sock
open Salticidae.Sock

/-- Descriptors of connections that could not be set up (setsockopt or fcntl failed). -/
def leaks : List Act → List Nat
  | [] => []
  | .connect fd (some .option) :: as => fd :: leaks as
  | .connectSync fd (some .option) :: as => fd :: leaks as
  | .accept fd (some .option) :: as => fd :: leaks as
  | .accept fd (some .last) :: as => fd :: leaks as
  | _ :: as => leaks as

/-- The port that is listened on: that of the last `listen` that was successful, if there was no later `listen`, no failure of accept(), and the network
was neither stopped nor destroyed. -/
def listening (as : List Act) : Option Nat := as.foldl port none
where
  port (p : Option Nat) : Act → Option Nat
    | .listen _ q none => some q
    | .listen _ _ (some _) => none
    | .accept _ (some .socket) => none
    | .stop => none
    | .destroy => none
    | _ => p

/-- Nothing more will happen to a connection by itself. -/
def Quiet (s : St) : Prop := ∀ x ∈ s.conns, x.polled = false ∧ x.tasks = 0

/-- Events that are reported without the id of a call. -/
def anonymous : Act → Bool
  | .accept _ (some _) => true
  | .connFail _ _ => true
  | _ => false

/-- What happened to the system calls of each connect(). -/
def connects (as : List Act) : List (Option Fail) :=
  as.filterMap fun a => match a with
    | .connect _ f => some f
    | _ => none

/-- A connect() that failed before there was a connection. -/
def early : Option (Option Fail) → Bool
  | some (some .socket) => true
  | some (some .option) => true
  | _ => false

/-- A connect() that made a connection, though the system may have refused to connect it. -/
def late : Option (Option Fail) → Bool
  | some none => true
  | some (some .last) => true
  | _ => false

/-- Whether the application has opened a descriptor and has not closed it. -/
def application (fd : Nat) (as : List Act) : Prop := as.foldl (application.has fd) False
where
  has (fd : Nat) (now : Prop) : Act → Prop
    | .appOpen d => d = fd ∨ now
    | .appClose d => d ≠ fd ∧ now
    | _ => now

end Spec.Sock
end Salticidae
