/-
Decimal numbers and the texts of addresses, independently of the model.
-/
namespace Salticidae
namespace Spec

def digits : List Char := ['0', '1', '2', '3', '4', '5', '6', '7', '8', '9']

/-- White space of the C locale. -/
def spaces : List Char := [' ', '\t', '\n', '\x0b', '\x0c', '\r']

/-- The number that a string of decimal digits denotes. -/
def decimal : List Char → Nat
  | [] => 0
  | c :: cs => digits.idxOf c * 10 ^ cs.length + decimal cs

/-- The texts that should be accepted: host, colon, one or more decimal digits. -/
def addrText (s host : List Char) (port : Nat) : Prop :=
  ∃ ds, s = host ++ ':' :: ds ∧ ':' ∉ host ∧ ds ≠ [] ∧ (∀ c ∈ ds, c ∈ digits) ∧ decimal ds = port ∧ port ≤ 65535

/-- The port texts that are accepted: white space, an optional sign, at least one digit with a value in range, then anything that does not start with a digit. -/
def laxPort (t : List Char) (port : Nat) : Prop :=
  ∃ ws sign ds rest, t = ws ++ sign ++ ds ++ rest ∧ (∀ c ∈ ws, c ∈ spaces) ∧
    (sign = [] ∨ sign = ['+'] ∨ (sign = ['-'] ∧ decimal ds = 0)) ∧
    ds ≠ [] ∧ (∀ c ∈ ds, c ∈ digits) ∧ (∀ c, rest.head? = some c → c ∉ digits) ∧
    decimal ds = port ∧ port ≤ 65535

end Spec
end Salticidae
