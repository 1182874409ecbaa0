/-
Model of keys and certificates as bytes: PKey::create_privkey_from_der, get_privkey_der (crypto.h:186-193, 206-215), X509::create_from_der, get_der (crypto.h:274-281, 290-299), and the C functions
around them (src/crypto.cpp:21-23, 33-35, 49-51, 61-63).  Keys and certificates are handled alike; K is either.

What OpenSSL makes of bytes is a parameter: i2d_* gives the bytes of an object (or an error), d2i_* reads one object from the beginning of a buffer, and advances a pointer (here: the number of bytes it has read).

Simplified: memory is not exhausted; that the buffers are freed is C100.
-/
namespace Salticidae
namespace Der

abbrev Bytes := List Nat

structure Codec (K : Type) where
  i2d : K → Option Bytes
  d2i : Bytes → Option (K × Nat)

inductive Res (α : Type) where
  | ok (a : α)
  | thrown
  | ub
  deriving DecidableEq, Repr

variable {K : Type}

/-- get_privkey_der, crypto.h:206-215, get_der, crypto.h:290-299: `ret <= 0` is an error. -/
def get (c : Codec K) (k : K) : Res Bytes :=
  match c.i2d k with
  | none => .thrown
  | some bs => if bs.length = 0 then .thrown else .ok bs

/-- create_privkey_from_der, crypto.h:186-193, create_from_der, crypto.h:274-281: `&der[0]` of an empty byte array is undefined; how far d2i has come is not looked at. -/
def create (c : Codec K) (bs : Bytes) : Res K :=
  match bs with
  | [] => .ub
  | b :: rest => match c.d2i (b :: rest) with
    | none => .thrown
    | some (k, _) => .ok k

end Der
end Salticidae
