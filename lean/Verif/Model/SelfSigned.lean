/-
Model of X509::create_self_signed_from_pubkey, X509::get_pubkey (crypto.h:236-252, 283-288), and of what a TLS context makes of such a certificate (TLSContext::set_verify, crypto.h:348-351, _skip_CA_check, 134-136).

Simplified: keys are numbers; strings are lists of nonzero bytes; the clock is in seconds, as certificates have it; memory is not exhausted.  What OpenSSL's functions do is taken from its documentation and its
table of string types (C: exactly 2 characters of PrintableString; O, CN: 1 to 64 characters).
-/
namespace Salticidae
namespace SelfSigned

/-- A PKey: the public key, and whether the private one is there (it is not in what X509::get_pubkey gives, crypto.h:283-288). -/
structure PKey where
  pub : Nat
  priv : Bool
  deriving DecidableEq, Repr

inductive Field where
  | country | organization | commonName
  deriving DecidableEq, Repr

abbrev Name := List (Field × List Nat)

structure Cert where
  serial : Nat
  key : Nat
  notBefore : Nat
  notAfter : Nat
  subject : Name
  issuer : Name
  signer : Option Nat  -- the key with which it has been signed
  deriving DecidableEq, Repr

/-- Characters of PrintableString. -/
def printable (c : Nat) : Bool :=
  (65 ≤ c && c ≤ 90) || (97 ≤ c && c ≤ 122) || (48 ≤ c && c ≤ 57) || [32, 39, 40, 41, 43, 44, 45, 46, 47, 58, 61, 63].contains c

/-- The strings that OpenSSL takes for a field. -/
def fits : Field → List Nat → Bool
  | .country, s => s.length == 2 && s.all printable
  | _, s => 1 ≤ s.length && s.length ≤ 64

/-- X509_NAME_add_entry_by_txt; that it fails is not noticed (crypto.h:243-248). -/
def addEntry (n : Name) (f : Field) (s : List Nat) : Name := if fits f s then n ++ [(f, s)] else n

/-- "libsalticidae", crypto.h:246. -/
def lib : List Nat := [108, 105, 98, 115, 97, 108, 116, 105, 99, 105, 100, 97, 101]

/-- X509_gmtime_adj(…, adj) at time t. -/
def gmtimeAdj (t adj : Nat) : Nat := t + adj

/-- X509_sign: the key, if its private part is there; that it fails is not noticed (crypto.h:250). -/
def sign (k : PKey) : Option Nat := if k.priv then some k.pub else none

/-- create_self_signed_from_pubkey, crypto.h:236-252: the clock is read at t1 and at t2.  (`none`: it throws, which it never does.) -/
def create (k : PKey) (country cn : List Nat) (t1 t2 : Nat) : Option Cert :=
  let name := addEntry (addEntry (addEntry [] .country country) .organization lib) .commonName cn
  some { serial := 1, key := k.pub, notBefore := gmtimeAdj t1 0, notAfter := gmtimeAdj t2 0, subject := name, issuer := name, signer := sign k }

/-- get_pubkey, crypto.h:283-288. -/
def getPubkey (c : Cert) : PKey := ⟨c.key, false⟩

/-- X509_check_time at t, with X509_cmp_time ("-1 if asn1_time is earlier than, or equal to, cmp_time"): it is not before notBefore, and notAfter has not come. -/
def validAt (c : Cert) (t : Nat) : Bool := decide (c.notBefore ≤ t) && decide (t < c.notAfter)

/-- Whether a context takes a certificate at time t: set_verify(skip, nullptr), crypto.h:348-351, 134-136.  If the check is not skipped, OpenSSL verifies it, against trusted certificates. -/
def accepts (skip : Bool) (trusted : List Cert) (c : Cert) (t : Nat) : Bool :=
  skip || (trusted.contains c && validAt c t)

end SelfSigned
end Salticidae
