import Verif.Model.Digest
import Verif.Model.Msg
/-
Model of the C interface to values: src/stream.cpp, src/msg.cpp, src/type.cpp, src/netaddr.cpp and the peer ids of src/network.cpp, over a heap of
memory cells.  A byte vector is an object field (a pointer) and, unless it has no storage, a cell of its own: copying allocates and copies,
moving hands the pointer over, destroying frees.

Simplifications: memory does not run out (a vector holds fewer than 2^63 bytes); a pointer into an object (datastream_data,
datastream_get_data_inplace, bytearray_data) is used right after it was obtained and not kept; the storage of the vectors of addresses and of
peer ids is part of the object's cell; pkey_t and x509_t are not included (Model/Tls); opcodes are uint8_t
(SALTICIDAE_CBINDINGS_STR_OP undefined); `&v[v.size()]` is taken to be a valid past-the-end pointer.
-/
namespace Salticidae
namespace CApi

/-- `std::vector<uint8_t>`: its storage, if it has any. -/
abbrev Vec := Option Nat

/-- The types behind the opaque pointers of the C interface. -/
inductive Kind | stream | bytes | hash | msg | addr | addrs | peer | peers | text
  deriving DecidableEq, Repr

/-- The C++ objects: DataStream (stream.h:38-40), bytearray_t (type.h:47), uint256_t (stream.h:233-240), MsgBase (msg.h:47-57),
NetAddr (netaddr.h:43-45), netaddr_array_t (netaddr.h:125), PeerId (network.h:313), peerid_array_t; and the text that
datastream_get_hex allocates (stream.cpp:159-165). -/
inductive Obj where
  | stream (v : Vec) (off : Nat)
  | bytes (v : Vec)
  | hash (b : Blob 8)
  | msg (magic : BitVec (8 * 4)) (op : BitVec (8 * 1)) (len sum : BitVec (8 * 4)) (noPayload : Bool) (v : Vec)
  | addr (a : NetAddr)
  | addrs (l : List NetAddr)
  | peer (b : Blob 8)
  | peers (l : List (Blob 8))
  | text (t : List Char)
  deriving DecidableEq, Repr

/-- The type of an object. -/
def Obj.kind : Obj → Kind
  | .stream .. => .stream
  | .bytes _ => .bytes
  | .hash _ => .hash
  | .msg .. => .msg
  | .addr _ => .addr
  | .addrs _ => .addrs
  | .peer _ => .peer
  | .peers _ => .peers
  | .text _ => .text

/-- The storage an object owns. -/
def Obj.vec : Obj → Vec
  | .stream v _ => v
  | .bytes v => v
  | .msg _ _ _ _ _ v => v
  | _ => none

/-- A piece of allocated memory. -/
inductive Cell where
  | obj (o : Obj)
  | raw (bs : List Byte)
  deriving DecidableEq, Repr

/-- Allocated memory, by address. -/
abbrev Heap := List (Nat × Cell)

/-- The allocator: it may return any address that is not in use.  `inplace`: a vector changes its content without moving to
other storage (its capacity suffices). -/
structure Alloc where
  pick : List Nat → Nat
  fresh : ∀ l, pick l ∉ l
  inplace : List Byte → List Byte → Bool

/-- Memory at an address. -/
def find (h : Heap) (p : Nat) : Option Cell := (h.find? (fun c => c.1 = p)).map (·.2)

/-- Overwrite the memory at an address; `none`: it is not allocated. -/
def put (h : Heap) (p : Nat) (c : Cell) : Option Heap :=
  if (find h p).isSome then some (h.map fun x => if x.1 = p then (p, c) else x) else none

/-- Release the memory at an address; `none`: it is not allocated. -/
def del (h : Heap) (p : Nat) : Option Heap :=
  if (find h p).isSome then some (h.filter fun x => x.1 ≠ p) else none

/-- Allocate. -/
def malloc (A : Alloc) (h : Heap) (c : Cell) : Heap × Nat :=
  let p := A.pick (h.map (·.1))
  ((p, c) :: h, p)

/-- The object at an address; `none`: there is none. -/
def obj (h : Heap) (p : Nat) : Option Obj :=
  match find h p with
  | some (.obj o) => some o
  | _ => none

/-- The elements of a vector; `none`: its storage is not allocated. -/
def content (h : Heap) : Vec → Option (List Byte)
  | none => some []
  | some q => match find h q with
    | some (.raw bs) => some bs
    | _ => none

/-- Constructor of a vector from a range, or copy. -/
def vecNew (A : Alloc) (h : Heap) (bs : List Byte) : Heap × Vec :=
  if bs = [] then (h, none) else
  let (h', q) := malloc A h (.raw bs)
  (h', some q)

/-- `resize`, `insert`, `clear`, `operator[]=`: the content becomes `bs`; the storage is kept or replaced. -/
def vecSet (A : Alloc) (h : Heap) (v : Vec) (bs : List Byte) : Option (Heap × Vec) :=
  match v with
  | none => some (vecNew A h bs)
  | some q => (content h (some q)).bind fun old =>
    if A.inplace old bs then (put h q (.raw bs)).map fun h' => (h', some q)
    else
      let (h1, q') := malloc A h (.raw bs)
      (del h1 q).map fun h2 => (h2, some q')

/-- Destructor of a vector. -/
def vecFree (h : Heap) : Vec → Option Heap
  | none => some h
  | some q => del h q

/-- What a call returns: a pointer to a new object, NULL, a number, a truth value, bytes read through a pointer, a number and a flag
(`*succ`), text, addresses, peer ids (32 bytes each), nothing; `abort`: a C++ exception leaves an extern "C" function and ends the program; `ub`: undefined behaviour. -/
inductive Ret where
  | ptr (p : Nat)
  | null
  | num (n : Nat)
  | flag (b : Bool)
  | data (bs : List Byte)
  | val (n : Nat) (ok : Bool)
  | str (t : List Char)
  | addrs (l : List NetAddr)
  | ids (l : List (List Byte))
  | done
  | abort
  | ub
  deriving DecidableEq, Repr

/-- Calls of the C interface, with pointers as numbers. -/
inductive Call where
  | dsNew | dsFromBytes (bs : List Byte) | dsFromArr (a : Nat) | dsMovedFromArr (a : Nat) | dsCopy (s : Nat) | dsClear (s : Nat) | dsSize (s : Nat)
  | dsPut (s w : Nat) (v : BitVec (8 * w)) | dsPutData (s : Nat) (bs : List Byte) | dsGet (s w : Nat) | dsGetData (s len : Nat)
  | dsData (s n : Nat) | dsSet (s i : Nat) (b : Byte) | dsHash (s : Nat) | dsHex (s : Nat)
  | baNew | baFromBytes (bs : List Byte) | baFromHex (t : List Char) | baMovedFromDs (s : Nat) | baCopiedFromDs (s : Nat) | baSize (a : Nat)
  | baData (a n : Nat) | baSet (a i : Nat) (b : Byte)
  | hNew | hFromBytes (bs : List Byte) | hFromArr (a : Nat) | hIsNull (x : Nat) | hEq (x y : Nat) | hPut (x s : Nat) | hGet (x s : Nat)
  | mNew (op : BitVec (8 * 1)) (a : Nat) | mConsume (m : Nat) | mOpcode (m : Nat) | mMagic (m : Nat) | mSetMagic (m : Nat) (v : BitVec (8 * 4))
  | mWire (m : Nat)
  | aNew | aFromIpPort (ip : BitVec (8 * 4)) (port : BitVec (8 * 2)) | aFromText (t : List Char) | aCopy (a : Nat) | aEq (a b : Nat) | aIsNull (a : Nat)
  | aIp (a : Nat) | aPort (a : Nat) | aaNew | aaFrom (l : List Nat)
  | pFromAddr (a : Nat) | pFromHash (x : Nat) | paNew | paFrom (l : List Nat)
  | textRead (p : Nat) | aaRead (l : Nat) | paRead (l : Nat)
  | free (k : Kind) (p : Nat)
  deriving DecidableEq

/-- What is fixed: byte order, SHA256 and SHA1, the resolver, the C library's treatment of `0x` in sscanf, the allocator. -/
structure Cfg where
  e : Endian
  H : List Byte → List Byte
  H1 : List Byte → List Byte
  resolve : List Char → Option (List Byte)
  lax : Bool
  A : Alloc

/-- `new T(...)` for an object without storage of its own, or with storage that exists already. -/
def create (g : Cfg) (h : Heap) (o : Obj) : Heap × Ret :=
  let (h', p) := malloc g.A h (.obj o)
  (h', .ptr p)

/-- `new T(...)` with a new vector of the given content. -/
def mkVec (g : Cfg) (h : Heap) (bs : List Byte) (o : Vec → Obj) : Heap × Ret :=
  let (h', v) := vecNew g.A h bs
  create g h' (o v)

/-- The stream at `s`, with its content; `none`: undefined behaviour. -/
def stream (h : Heap) (s : Nat) : Option (Vec × DataStream) :=
  match obj h s with
  | some (.stream v off) => (content h v).map fun bs => (v, ⟨bs, off⟩)
  | _ => none

/-- The array at `a`, with its content. -/
def array (h : Heap) (a : Nat) : Option (Vec × List Byte) :=
  match obj h a with
  | some (.bytes v) => (content h v).map fun bs => (v, bs)
  | _ => none

/-- Store a changed stream: new content and offset. -/
def setStream (g : Cfg) (h : Heap) (s : Nat) (v : Vec) (d : DataStream) : Option Heap :=
  (vecSet g.A h v d.buffer).bind fun x => put x.1 s (.obj (.stream x.2 d.offset))

/-- Store a changed offset only. -/
def setOff (h : Heap) (s : Nat) (v : Vec) (off : Nat) : Option Heap := put h s (.obj (.stream v off))

/-- `(*res)[i] = *addrs[i]`, netaddr.cpp:51-54. -/
def addrsAt (h : Heap) : List Nat → Option (List NetAddr)
  | [] => some []
  | a :: l => match obj h a with
    | some (.addr x) => (addrsAt h l).map fun r => x :: r
    | _ => none

/-- `(*res)[i] = *peers[i]`, network.cpp:204-207. -/
def peersAt (h : Heap) : List Nat → Option (List (Blob 8))
  | [] => some []
  | a :: l => match obj h a with
    | some (.peer x) => (peersAt h l).map fun r => x :: r
    | _ => none

/-- A hash value, or a peer id as a hash value (peerid_as_uint256, network.cpp:212). -/
def blobAt (h : Heap) (x : Nat) : Option (Blob 8) :=
  match obj h x with
  | some (.hash b) => some b
  | some (.peer b) => some b
  | _ => none

/-- One call; `none`: undefined behaviour. -/
def step (g : Cfg) (h : Heap) : Call → Option (Heap × Ret)
  -- datastream_new, stream.cpp:39-45
  | .dsNew => some (create g h (.stream none 0))
  -- datastream_new_from_bytes, stream.cpp:47-53
  | .dsFromBytes bs => some (mkVec g h bs (.stream · 0))
  -- datastream_new_from_bytearray, stream.cpp:55-61
  | .dsFromArr a => (array h a).map fun x => mkVec g h x.2 (.stream · 0)
  -- datastream_new_moved_from_bytearray, stream.cpp:63-69 (DataStream(bytearray_t &&), stream.h:45)
  | .dsMovedFromArr a => (array h a).bind fun x => (put h a (.obj (.bytes none))).map fun h' => create g h' (.stream x.1 0)
  -- datastream_copy, stream.cpp:73-77
  | .dsCopy s => (stream h s).map fun x => mkVec g h x.2.buffer (.stream · x.2.offset)
  -- datastream_clear, stream.cpp:81
  | .dsClear s => (stream h s).bind fun x => (setStream g h s x.1 x.2.clear).map fun h' => (h', .done)
  -- datastream_size, stream.cpp:83
  | .dsSize s => (stream h s).map fun x => (h, .num x.2.size)
  -- datastream_put_u8 .. datastream_put_i64, stream.cpp:85-93
  | .dsPut s _ v => (stream h s).bind fun x => (setStream g h s x.1 (x.2.putInt g.e v)).map fun h' => (h', .flag true)
  -- datastream_put_data, stream.cpp:95-100
  | .dsPutData s bs => (stream h s).bind fun x => (setStream g h s x.1 (x.2.putData bs)).map fun h' => (h', .flag true)
  -- datastream_get_u8 .. datastream_get_i64, stream.cpp:102-110
  | .dsGet s w => (stream h s).bind fun x => match x.2.cGetInt g.e w with
    | .ok d r => (setOff h s x.1 d.offset).map fun h' => (h', .val r.1.toNat r.2)
    | _ => none
  -- datastream_get_data_inplace, stream.cpp:112-118; the caller reads the `len` bytes
  | .dsGetData s len => (stream h s).bind fun x => match x.2.getBlock len with
    | .ok d bs => (setOff h s x.1 d.offset).map fun h' => (h', .data bs)
    | .throw d => (setOff h s x.1 d.offset).map fun h' => (h', .null)
    | .ub => none
  -- datastream_data, stream.cpp:79; the caller reads `n` bytes
  | .dsData s n => (stream h s).bind fun x =>
    if x.2.offset + n ≤ x.2.buffer.length then some (h, .data ((x.2.buffer.drop x.2.offset).take n)) else none
  -- datastream_data; the caller writes the byte at `i`
  | .dsSet s i b => (stream h s).bind fun x => match x.1 with
    | some q => if x.2.offset + i < x.2.buffer.length then
        (put h q (.raw (x.2.buffer.set (x.2.offset + i) b))).map fun h' => (h', .done) else none
    | none => none
  -- datastream_get_hash, stream.cpp:120-126
  | .dsHash s => (stream h s).bind fun x => (Digest.getHash g.H x.2).map fun b => create g h (.hash b)
  -- datastream_get_hex, stream.cpp:160-166
  | .dsHex s => (stream h s).bind fun x => match x.2.getHex with
    | .ok _ t => some (create g h (.text t))
    | _ => none
  -- bytearray_new, type.cpp:7
  | .baNew => some (create g h (.bytes none))
  -- bytearray_new_from_bytes, stream.cpp:152-158
  | .baFromBytes bs => some (mkVec g h bs .bytes)
  -- bytearray_new_from_hex, stream.cpp:144-150 (from_hex, stream.h:453-457)
  | .baFromHex t => match DataStream.empty.loadHex g.lax t with
    | .ok d _ => match d.toBytesRvalue with
      | .ok _ bs => some (mkVec g h bs .bytes)
      | _ => none
    | .throw _ => some (h, .null)
    | .ub => none
  -- bytearray_new_moved_from_datastream, stream.cpp:128-134: the conversion copies the buffer (stream.h:190-192)
  | .baMovedFromDs s => (stream h s).bind fun x => match x.2.toBytesRvalue with
    | .ok _ bs => some (mkVec g h bs .bytes)
    | _ => none
  -- bytearray_new_copied_from_datastream, stream.cpp:136-142
  | .baCopiedFromDs s => (stream h s).bind fun x => match x.2.toBytesLvalue with
    | .ok _ bs => some (mkVec g h bs .bytes)
    | _ => none
  -- bytearray_size, type.cpp:13
  | .baSize a => (array h a).map fun x => (h, .num x.2.length)
  -- bytearray_data, type.cpp:11; the caller reads `n` bytes
  | .baData a n => (array h a).bind fun x => if n ≤ x.2.length then some (h, .data (x.2.take n)) else none
  -- bytearray_data; the caller writes the byte at `i`
  | .baSet a i b => (array h a).bind fun x => match x.1 with
    | some q => if i < x.2.length then (put h q (.raw (x.2.set i b))).map fun h' => (h', .done) else none
    | none => none
  -- uint256_new, stream.cpp:7
  | .hNew => some (create g h (.hash (Blob.null 8 4)))
  -- uint256_new_from_bytes, stream.cpp:8-14: reads 32 bytes
  | .hFromBytes bs => if 32 ≤ bs.length then some (create g h (.hash (Blob.load 8 4 (bs.take 32)))) else none
  -- uint256_new_from_bytearray, stream.cpp:16-22
  | .hFromArr a => (array h a).map fun x => match Blob.ofBytes 8 4 x.2 with
    | some b => create g h (.hash b)
    | none => (h, .null)
  -- uint256_is_null, stream.cpp:26
  | .hIsNull x => (blobAt h x).map fun b => (h, .flag b.isNull)
  -- uint256_is_eq, stream.cpp:27-29
  | .hEq x y => (blobAt h x).bind fun a => (blobAt h y).map fun b => (h, .flag (a.eq b))
  -- uint256_serialize, stream.cpp:31-33
  | .hPut x s => (blobAt h x).bind fun b => (stream h s).bind fun y => (setStream g h s y.1 (b.serialize g.e y.2)).map fun h' => (h', .done)
  -- uint256_unserialize, stream.cpp:35-37: not in a try block
  | .hGet x s => match obj h x with
    | some (.hash b) => (stream h s).bind fun y =>
      let r := b.unserialize g.e y.2
      if r.2.2 then (put h x (.obj (.hash r.1))).bind fun h1 => (setOff h1 s y.1 r.2.1.offset).map fun h' => (h', .done) else some (h, .abort)
    | _ => none
  -- msg_new_moved_from_bytearray, msg.cpp:7-9 (msg.h:70-75): the vector is moved into the message
  | .mNew op a => (array h a).bind fun x => (put h a (.obj (.bytes none))).map fun h' =>
    create g h' (.msg 0 op (BitVec.ofNat _ x.2.length) (Msg.checksumOf g.e g.H1 x.2) false x.1)
  -- msg_consume_payload, msg.cpp:13-15 (get_payload, msg.h:165-172): not in a try block
  | .mConsume m => match obj h m with
    | some (.msg magic op len sum no v) =>
      if no then some (h, .abort)
      else (put h m (.obj (.msg magic op len sum true none))).map fun h' => create g h' (.stream v 0)
    | _ => none
  -- msg_get_opcode, msg.cpp:17
  | .mOpcode m => match obj h m with
    | some (.msg _ op _ _ _ _) => some (h, .num op.toNat)
    | _ => none
  -- msg_get_magic, msg.cpp:19
  | .mMagic m => match obj h m with
    | some (.msg magic _ _ _ _ _) => some (h, .num magic.toNat)
    | _ => none
  -- msg_set_magic, msg.cpp:21
  | .mSetMagic m v => match obj h m with
    | some (.msg _ op len sum no w) => (put h m (.obj (.msg v op len sum no w))).map fun h' => (h', .done)
    | _ => none
  -- msgnetwork_send_msg, network.cpp:82-84: what _send_msg (network.h:730-741) writes to the connection
  | .mWire m => match obj h m with
    | some (.msg magic op len sum no v) => (content h v).map fun bs =>
      (h, .data ((⟨magic, op, len, sum, bs, no⟩ : Msg 1).serialize g.e))
    | _ => none
  -- netaddr_new, netaddr.cpp:9
  | .aNew => some (create g h (.addr NetAddr.null))
  -- netaddr_new_from_ip_port, netaddr.cpp:13-18
  | .aFromIpPort ip port => some (create g h (.addr ⟨ip, port⟩))
  -- netaddr_new_from_sipport, netaddr.cpp:27-32
  | .aFromText t => some (match NetAddr.ofText g.e g.resolve t with
    | some a => create g h (.addr a)
    | none => (h, .null))
  -- netaddr_copy, netaddr.cpp:34-36
  | .aCopy a => match obj h a with
    | some (.addr x) => some (create g h (.addr x))
    | _ => none
  -- netaddr_is_eq, netaddr.cpp:38-40
  | .aEq a b => match obj h a, obj h b with
    | some (.addr x), some (.addr y) => some (h, .flag (x.eq y))
    | _, _ => none
  -- netaddr_is_null, netaddr.cpp:42
  | .aIsNull a => match obj h a with
    | some (.addr x) => some (h, .flag x.isNull)
    | _ => none
  -- netaddr_get_ip, netaddr.cpp:44
  | .aIp a => match obj h a with
    | some (.addr x) => some (h, .num x.ip.toNat)
    | _ => none
  -- netaddr_get_port, netaddr.cpp:46
  | .aPort a => match obj h a with
    | some (.addr x) => some (h, .num x.port.toNat)
    | _ => none
  -- netaddr_array_new, netaddr.cpp:48
  | .aaNew => some (create g h (.addrs []))
  -- netaddr_array_new_from_addrs, netaddr.cpp:49-55
  | .aaFrom l => (addrsAt h l).map fun x => create g h (.addrs x)
  -- peerid_new_from_netaddr, network.cpp:187-189
  | .pFromAddr a => match obj h a with
    | some (.addr x) => (Digest.idOfAddr g.H g.e x).map fun b => create g h (.peer b)
    | _ => none
  -- peerid_new_moved_from_uint256 and peerid_new_copied_from_uint256, network.cpp:195-201 (moving a Blob copies it)
  | .pFromHash x => (blobAt h x).map fun b => create g h (.peer b)
  -- peerid_array_new, network.cpp:203
  | .paNew => some (create g h (.peers []))
  -- peerid_array_new_from_peers, network.cpp:204-210
  | .paFrom l => (peersAt h l).map fun x => create g h (.peers x)
  -- the caller reads a string made by datastream_get_hex
  | .textRead p => match obj h p with
    | some (.text t) => some (h, .str t)
    | _ => none
  -- the addresses that multicast (network.cpp, clientnetwork_multicast_msg_by_move) goes through
  | .aaRead p => match obj h p with
    | some (.addrs l) => some (h, .addrs l)
    | _ => none
  -- the peers that peernetwork_multicast_msg_by_move (network.cpp:308-311) goes through: the tables of peers look at the data of an id only
  | .paRead p => match obj h p with
    | some (.peers l) => some (h, .ids (l.map fun b => b.data.flatMap fun w => Spec.leEnc 8 w.toNat))
    | _ => none
  -- uint256_free, datastream_free (stream.cpp:24, 71), bytearray_free (type.cpp:9), msg_free (msg.cpp:11), netaddr_free, netaddr_array_free
  -- (netaddr.cpp:11, 57), peerid_free, peerid_array_free (network.cpp:186, 214), free()
  | .free k p => (obj h p).bind fun o =>
    if o.kind = k then (vecFree h o.vec).bind fun h1 => (del h1 p).map fun h2 => (h2, .done) else none

/-- Run a program: the calls made with what they returned, and the memory at the end.  A program that has been ended makes no more calls. -/
def run (g : Cfg) : Heap → List Call → List (Call × Ret) × Heap
  | h, [] => ([], h)
  | h, c :: cs => match step g h c with
    | none => ([(c, .ub)], h)
    | some (h', r) =>
      if r = .abort then ([(c, r)], h')
      else
        let x := run g h' cs
        ((c, r) :: x.1, x.2)

end CApi
end Salticidae
