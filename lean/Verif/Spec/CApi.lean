import Verif.Model.CApi
import Verif.Spec.Frames
/-
What a C program may rely on: the pointers it holds stand for values, as if there were no memory.  A stream is a queue of bytes.
Each call reads or changes only the values it is given; a value that was handed over by a "moved" call may only be freed.
-/
namespace Salticidae
namespace Spec.CApi
open Salticidae.CApi

/-- The values behind the pointers of a program.  `stream kept unread`: the bytes not read yet; `kept` counts the bytes put in since the stream was
made or cleared (they stay in memory when they have been read).  `hash`: null or 32 bytes.  `msg`: the payload, until it has been consumed. -/
inductive Val where
  | stream (kept : Nat) (unread : List Byte)
  | bytes (bs : List Byte)
  | hash (v : Option (List Byte))
  | msg (op : BitVec (8 * 1)) (magic : BitVec (8 * 4)) (payload : Option (List Byte))
  | addr (a : NetAddr)
  | addrs (l : List NetAddr)
  | peer (v : Option (List Byte))
  | peers (l : List (Option (List Byte)))
  | text (t : List Char)
  | gone (k : Kind)
  deriving DecidableEq, Repr

/-- The type of a value. -/
def Val.kind : Val → Kind
  | .stream .. => .stream
  | .bytes _ => .bytes
  | .hash _ => .hash
  | .msg .. => .msg
  | .addr _ => .addr
  | .addrs _ => .addrs
  | .peer _ => .peer
  | .peers _ => .peers
  | .text _ => .text
  | .gone k => k

/-- What the program holds. -/
abbrev Env := List (Nat × Val)

/-- The value behind a pointer; `none`: the program does not own the pointer. -/
def get (env : Env) (p : Nat) : Option Val := (env.find? (fun x => x.1 = p)).map (·.2)

/-- The value behind a pointer changes. -/
def set (env : Env) (p : Nat) (v : Val) : Env := env.map fun x => if x.1 = p then (p, v) else x

/-- A pointer is given up. -/
def del (env : Env) (p : Nat) : Env := env.filter fun x => x.1 ≠ p

/-- The result of a call: a new value (behind a new pointer), or what the call returns. -/
inductive Result where
  | made (v : Val)
  | ret (r : Ret)

/-- A vector can hold this many bytes. -/
def Fits (n : Nat) : Prop := n < 2 ^ 63

instance (n : Nat) : Decidable (Fits n) := by unfold Fits; exact inferInstance

/-- The values behind several pointers. -/
def addrsOf (env : Env) : List Nat → Option (List NetAddr)
  | [] => some []
  | a :: l => match get env a with
    | some (.addr x) => (addrsOf env l).map fun r => x :: r
    | _ => none

/-- The values behind several pointers. -/
def peersOf (env : Env) : List Nat → Option (List (Option (List Byte)))
  | [] => some []
  | a :: l => match get env a with
    | some (.peer x) => (peersOf env l).map fun r => x :: r
    | _ => none

/-- A value made from given bytes, if they fit into memory. -/
def makeIf (env : Env) (n : Nat) (v : Val) : Option (Env × Result) := if Fits n then some (env, .made v) else none

/-- The hash value behind a pointer; a peer id is a hash value, too. -/
def hashOf (env : Env) (p : Nat) : Option (Option (List Byte)) :=
  match get env p with
  | some (.hash v) => some v
  | some (.peer v) => some v
  | _ => none

/-- The 32 bytes of a hash value: a null value counts as zero. -/
def hashBytes (v : Option (List Byte)) : List Byte := v.getD (List.replicate 32 0)

/-- The effect of a call on the values the program holds, and its result; `none`: the program may not make this call. -/
def step (g : Cfg) (env : Env) : Call → Option (Env × Result)
  | .dsNew => some (env, .made (.stream 0 []))
  | .dsFromBytes bs => makeIf env bs.length (.stream bs.length bs)
  | .dsFromArr a => match get env a with
    | some (.bytes bs) => some (env, .made (.stream bs.length bs))
    | _ => none
  | .dsMovedFromArr a => match get env a with
    | some (.bytes bs) => some (set env a (.gone .bytes), .made (.stream bs.length bs))
    | _ => none
  | .dsCopy s => match get env s with
    | some (.stream k u) => some (env, .made (.stream k u))
    | _ => none
  | .dsClear s => match get env s with
    | some (.stream _ _) => some (set env s (.stream 0 []), .ret .done)
    | _ => none
  | .dsSize s => match get env s with
    | some (.stream _ u) => some (env, .ret (.num u.length))
    | _ => none
  | .dsPut s w v => match get env s with
    | some (.stream k u) => if Fits (k + w) then some (set env s (.stream (k + w) (u ++ memEnc g.e v)), .ret (.flag true)) else none
    | _ => none
  | .dsPutData s bs => match get env s with
    | some (.stream k u) => if Fits (k + bs.length) then some (set env s (.stream (k + bs.length) (u ++ bs)), .ret (.flag true)) else none
    | _ => none
  | .dsGet s w => match get env s with
    | some (.stream k u) =>
      if 8 < w then none
      else if w ≤ u.length then some (set env s (.stream k (u.drop w)), .ret (.val (memDec g.e w (u.take w)).toNat true))
      else some (env, .ret (.val 0 false))
    | _ => none
  | .dsGetData s n => match get env s with
    | some (.stream k u) => if n ≤ u.length then some (set env s (.stream k (u.drop n)), .ret (.data (u.take n))) else some (env, .ret .null)
    | _ => none
  | .dsData s n => match get env s with
    | some (.stream _ u) => if n ≤ u.length then some (env, .ret (.data (u.take n))) else none
    | _ => none
  | .dsSet s i b => match get env s with
    | some (.stream k u) => if i < u.length then some (set env s (.stream k (u.set i b)), .ret .done) else none
    | _ => none
  | .dsHash s => match get env s with
    | some (.stream _ u) => some (env, .made (.hash (some (g.H u))))
    | _ => none
  | .dsHex s => match get env s with
    | some (.stream _ u) => some (env, .made (.text (u.flatMap fun b => [hexDigit (b.toNat / 16), hexDigit (b.toNat % 16)])))
    | _ => none
  | .baNew => some (env, .made (.bytes []))
  | .baFromBytes bs => makeIf env bs.length (.bytes bs)
  | .baFromHex t => match hexDecode t with
    | some bs => makeIf env bs.length (.bytes bs)
    | none => some (env, .ret .null)
  | .baMovedFromDs s => match get env s with
    | some (.stream _ u) => some (set env s (.gone .stream), .made (.bytes u))
    | _ => none
  | .baCopiedFromDs s => match get env s with
    | some (.stream _ u) => some (env, .made (.bytes u))
    | _ => none
  | .baSize a => match get env a with
    | some (.bytes bs) => some (env, .ret (.num bs.length))
    | _ => none
  | .baData a n => match get env a with
    | some (.bytes bs) => if n ≤ bs.length then some (env, .ret (.data (bs.take n))) else none
    | _ => none
  | .baSet a i b => match get env a with
    | some (.bytes bs) => if i < bs.length then some (set env a (.bytes (bs.set i b)), .ret .done) else none
    | _ => none
  | .hNew => some (env, .made (.hash none))
  | .hFromBytes bs => if 32 ≤ bs.length then some (env, .made (.hash (some (bs.take 32)))) else none
  | .hFromArr a => match get env a with
    | some (.bytes bs) => if bs.length = 32 then some (env, .made (.hash (some bs))) else some (env, .ret .null)
    | _ => none
  | .hIsNull x => match hashOf env x with
    | some v => some (env, .ret (.flag v.isNone))
    | _ => none
  | .hEq x y => match hashOf env x, hashOf env y with
    | some v, some w => some (env, .ret (.flag (v = w)))
    | _, _ => none
  | .hPut x s => match hashOf env x, get env s with
    | some v, some (.stream k u) => if Fits (k + 32) then some (set env s (.stream (k + 32) (u ++ hashBytes v)), .ret .done) else none
    | _, _ => none
  | .hGet x s => match get env x, get env s with
    | some (.hash _), some (.stream k u) =>
      if 32 ≤ u.length then some (set (set env x (.hash (some (u.take 32)))) s (.stream k (u.drop 32)), .ret .done) else none
    | _, _ => none
  | .mNew op a => match get env a with
    | some (.bytes bs) => some (set env a (.gone .bytes), .made (.msg op 0 (some bs)))
    | _ => none
  | .mConsume m => match get env m with
    | some (.msg op magic (some bs)) => some (set env m (.msg op magic none), .made (.stream bs.length bs))
    | some (.msg _ _ none) => some (env, .ret .null)
    | _ => none
  | .mOpcode m => match get env m with
    | some (.msg op _ _) => some (env, .ret (.num op.toNat))
    | _ => none
  | .mMagic m => match get env m with
    | some (.msg _ magic _) => some (env, .ret (.num magic.toNat))
    | _ => none
  | .mSetMagic m v => match get env m with
    | some (.msg op _ p) => some (set env m (.msg op v p), .ret .done)
    | _ => none
  | .mWire m => match get env m with
    | some (.msg op magic (some bs)) =>
      if bs.length < 2 ^ 32 then
        some (env, .ret (.data (Frame.enc ⟨magic.toNat, [op], (Msg.checksumOf g.e g.H1 bs).toNat, bs⟩)))
      else none
    | _ => none
  | .aNew => some (env, .made (.addr ⟨0, 0⟩))
  | .aFromIpPort ip port => some (env, .made (.addr ⟨ip, port⟩))
  | .aFromText t => match NetAddr.ofText g.e g.resolve t with
    | some a => some (env, .made (.addr a))
    | none => some (env, .ret .null)
  | .aCopy a => match get env a with
    | some (.addr x) => some (env, .made (.addr x))
    | _ => none
  | .aEq a b => match get env a, get env b with
    | some (.addr x), some (.addr y) => some (env, .ret (.flag (x = y)))
    | _, _ => none
  | .aIsNull a => match get env a with
    | some (.addr x) => some (env, .ret (.flag (x = ⟨0, 0⟩)))
    | _ => none
  | .aIp a => match get env a with
    | some (.addr x) => some (env, .ret (.num x.ip.toNat))
    | _ => none
  | .aPort a => match get env a with
    | some (.addr x) => some (env, .ret (.num x.port.toNat))
    | _ => none
  | .aaNew => some (env, .made (.addrs []))
  | .aaFrom l => (addrsOf env l).map fun x => (env, .made (.addrs x))
  | .pFromAddr a => match get env a with
    | some (.addr x) => some (env, .made (.peer (some (g.H (memEnc g.e x.ip ++ memEnc g.e x.port)))))
    | _ => none
  | .pFromHash x => match hashOf env x with
    | some v => some (env, .made (.peer v))
    | _ => none
  | .paNew => some (env, .made (.peers []))
  | .paFrom l => (peersOf env l).map fun x => (env, .made (.peers x))
  | .textRead p => match get env p with
    | some (.text t) => some (env, .ret (.str t))
    | _ => none
  | .aaRead p => match get env p with
    | some (.addrs l) => some (env, .ret (.addrs l))
    | _ => none
  | .paRead p => match get env p with
    | some (.peers l) => some (env, .ret (.ids (l.map hashBytes)))
    | _ => none
  | .free k p => match get env p with
    | some v => if v.kind = k then some (del env p, .ret .done) else none
    | none => none

/-- The judgement on a run. -/
inductive Verdict where
  /-- a call did not return what it had to, or ended the program -/
  | wrong
  /-- the program made a call it may not make: nothing is said about what follows -/
  | excused
  /-- all calls returned what they had to, and the program holds these values now -/
  | good (env : Env)
  deriving DecidableEq

/-- Follow a run.  Every new value has to be behind a pointer that the program does not hold already.  The calls that `ex` names are not
looked at either. -/
def follow (g : Cfg) (ex : Env → Call → Bool) : Env → List (Call × Ret) → Verdict
  | env, [] => .good env
  | env, (c, r) :: t =>
    if ex env c then .excused
    else match step g env c with
    | none => .excused
    | some (env', .ret r') => if r = r' then follow g ex env' t else .wrong
    | some (env', .made v) => match r with
      | .ptr p => if p ∈ env'.map (·.1) then .wrong else follow g ex ((p, v) :: env') t
      | _ => .wrong

/-- The calls for which the library does not do what one should expect:
an integer or a block is read from a stream that is too short; hexadecimal text with other characters in it; an array is made ("moved") from a
stream that has been read from; null hash values are compared; a payload is consumed twice. -/
def trouble (env : Env) : Call → Bool
  | .dsGet s w => match get env s with
    | some (.stream _ u) => decide (u.length < w)
    | _ => false
  | .dsGetData s n => match get env s with
    | some (.stream _ u) => decide (u.length < n)
    | _ => false
  | .baFromHex t => decide (t.length % 2 = 0) && (hexDecode t).isNone
  | .baMovedFromDs s => match get env s with
    | some (.stream k u) => decide (k ≠ u.length)
    | _ => false
  | .hEq x y => decide (hashOf env x = some none) || decide (hashOf env y = some none)
  | .mConsume m => match get env m with
    | some (.msg _ _ none) => true
    | _ => false
  | _ => false

end Spec.CApi
end Salticidae
