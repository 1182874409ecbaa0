import Verif.Model.NetAddr
import Verif.Model.Blob
/-
Model of the classes SHA256 and SHA1, include/salticidae/crypto.h:38-118, of get_hash, include/salticidae/stream.h:435-445, and of
PeerId, include/salticidae/network.h:313-322 and 540-545.

The hash function (OpenSSL) is a parameter `H` from byte strings to byte strings.  A context is the bytes it has absorbed;
SHA256_Final and SHA1_Final erase it (OpenSSL manual), after which only SHA256_Init / SHA1_Init gives it a value again.

Simplified: the OpenSSL calls do not fail; as in Model/Stream, `&*begin()` of an empty container is not an error when the length is 0.
-/
namespace Salticidae
namespace Digest

/-- The two classes: they differ in the functions they call only. -/
inductive Alg | sha256 | sha1
  deriving DecidableEq, Repr

/-- Bytes written by SHA256_Final, SHA1_Final. -/
def Alg.len : Alg → Nat
  | .sha256 => 32
  | .sha1 => 20

/-- `ctx`: the bytes absorbed, or `none` once erased. -/
abbrev Ctx := Option (List Byte)

inductive Op where
  | reset
  | update (bs : List Byte)
  | digest                          -- `digest()`
  | digestInto (md : List Byte)     -- `digest(md)`
  deriving DecidableEq, Repr

/-- `vector::resize`. -/
def resize (n : Nat) (md : List Byte) : List Byte := md.take n ++ List.replicate (n - md.length) 0

/-- `_digest`, crypto.h:61-64 and 101-104: the first bytes of `md` are overwritten; `md` is what `digest` has made of it. -/
def final (h : List Byte) (md : List Byte) : List Byte := h ++ md.drop h.length

/-- The member functions, crypto.h:42-75 and 82-115: context afterwards and the array given back, if any; `none`: an erased
context is used. -/
def step (H : List Byte → List Byte) (c : Ctx) : Op → Option (Ctx × Option (List Byte))
  | .reset => some (some [], none)
  | .update bs => c.map fun x => (some (x ++ bs), none)
  | .digest => c.map fun x => (none, some (final (H x) (List.replicate 32 0)))
  | .digestInto md => c.map fun x => (none, some (final (H x) (resize 32 md)))

/-- A sequence of calls: the arrays given back. -/
def run (H : List Byte → List Byte) : Ctx → List Op → Option (List (List Byte))
  | _, [] => some []
  | c, o :: os => (step H c o).bind fun x => (run H x.1 os).map fun r => x.2.toList ++ r

/-- The constructor, crypto.h:42 and 82. -/
def fresh : Ctx := some []

/-- `DataStream::get_hash`, stream.h:435-439: `none`: the offset is past the end, and memory outside of the buffer is read. The
conversion to uint256_t is Blob(const bytearray_t &), which throws for other lengths than 32. -/
def getHash (H : List Byte → List Byte) (s : DataStream) : Option (Blob 8) :=
  if s.offset > s.buffer.length then none
  else match run H fresh [.update ((s.buffer.drop s.offset).take s.size), .digest] with
    | some [md] => Blob.ofBytes 8 4 md
    | _ => none

/-- `PeerId(const NetAddr &)`, network.h:315-317. -/
def idOfAddr (H : List Byte → List Byte) (e : Endian) (a : NetAddr) : Option (Blob 8) := getHash H (a.serialize e DataStream.empty)

/-- `PeerId(const X509 &)`, network.h:319-321; `der` is the DER form of the certificate. -/
def idOfCert (H : List Byte → List Byte) (der : List Byte) : Option (Blob 8) := getHash H (DataStream.empty.putData der)

/-- `IdentityMode`, network.h:354-357. -/
inductive Mode | addrBased | certBased
  deriving DecidableEq, Repr

/-- `_get_peer_id`, network.h:540-545: `none` also if a null certificate is used. -/
def getPeerId (H : List Byte → List Byte) (e : Endian) (tls : Bool) (m : Mode) (cert : Option (List Byte)) (a : NetAddr) : Option (Blob 8) :=
  if !tls || m == .addrBased then idOfAddr H e a else cert.bind (idOfCert H)

end Digest
end Salticidae
