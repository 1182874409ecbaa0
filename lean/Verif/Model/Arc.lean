/-
Model of ArcObj / AweakObj handles to one object used by any number of threads:
`_ARCCtl`, include/salticidae/ref.h:178-202, with the constructors and destructors of
`_RcObjBase` and `_WeakObjBase` that call it (ref.h:204-366).

One step is one access to a shared atomic variable (sequentially consistent, the default memory
order the code uses), or the deletion of the object or of the control block.  Idle handles are
counted; a handle in the middle of an operation is an entry of `ops`.  A handle is not destroyed
while it is being copied from (a data race on the handle object itself is outside the model).
`dcnt` is a uint8: `m` is 256.  `uaf` is set when a step accesses the control block after
`delete this`.
-/
namespace Salticidae
namespace Arc

/-- Program counters of the operations in progress. -/
inductive Pc where
  | r1      -- release_ref after `dcnt++` (ref.h:185): next `--ref_cnt`
  | r2      -- ref.h:186 non-zero: next `dcnt--`, return false
  | r3      -- ref.h:186 zero: next read `weak_cnt`
  | r4      -- ref.h:187 non-zero: next `dcnt--`, return true
  | r5      -- ref.h:188: next `--dcnt`
  | r6      -- ref.h:188: next `delete this`
  | r7      -- ref.h:365: next `D()(obj)`
  | w1      -- release_weak after `dcnt++` (ref.h:192): next `--weak_cnt`
  | w2      -- next `dcnt--`, return (ref.h:193, 194)
  | w3      -- ref.h:193 zero: next read `ref_cnt`
  | w5      -- ref.h:195: next `--dcnt`
  | w6      -- ref.h:195: next `delete this`
  | u1      -- upgrade after reading `ref_cnt` non-zero (ref.h:350): next `add_ref`
  | done
  deriving DecidableEq, Repr

/-- The control block, the object and the handles. -/
structure St where
  ref : Nat
  weak : Nat
  dcnt : Nat
  freed : Nat        -- number of `delete this`
  destroyed : Nat    -- number of destructor runs of the object
  uaf : Bool
  strong : Nat       -- idle strong handles
  weakH : Nat        -- idle weak handles
  ops : List Pc
  deriving DecidableEq, Repr

/-- One ArcObj has just been created, ref.h:199, 300. -/
def init : St := ⟨1, 0, 0, 0, 0, false, 1, 0, []⟩

/-- What can happen next. -/
inductive Act where
  | copy          -- copy an idle strong handle: `ref_cnt++` (ref.h:182, 305)
  | drop          -- destructor of an idle strong handle: `dcnt++` (ref.h:185)
  | weakOf        -- weak handle from an idle strong handle: `weak_cnt++` (ref.h:183, 463)
  | weakCopy      -- copy an idle weak handle: `weak_cnt++`
  | weakDrop      -- destructor of an idle weak handle: `dcnt++` (ref.h:192)
  | upgrade       -- upgrade an idle weak handle: read `ref_cnt` (ref.h:350)
  | next (i : Nat)  -- the next step of operation i
  deriving DecidableEq, Repr

/-- Mark an access to the control block. -/
def touch (s : St) : St := if s.freed = 0 then s else { s with uaf := true }

/-- One step; `none` when it cannot happen. -/
def step (m : Nat) (s : St) : Act → Option St
  | .copy => if s.strong = 0 then none else some { touch s with ref := s.ref + 1, strong := s.strong + 1 }
  | .drop => if s.strong = 0 then none
      else some { touch s with strong := s.strong - 1, dcnt := (s.dcnt + 1) % m, ops := s.ops ++ [.r1] }
  | .weakOf => if s.strong = 0 then none else some { touch s with weak := s.weak + 1, weakH := s.weakH + 1 }
  | .weakCopy => if s.weakH = 0 then none else some { touch s with weak := s.weak + 1, weakH := s.weakH + 1 }
  | .weakDrop => if s.weakH = 0 then none
      else some { touch s with weakH := s.weakH - 1, dcnt := (s.dcnt + 1) % m, ops := s.ops ++ [.w1] }
  | .upgrade => if s.weakH = 0 then none
      else if s.ref = 0 then some (touch s)
      else some { touch s with weakH := s.weakH - 1, ops := s.ops ++ [.u1] }
  | .next i =>
    match s.ops[i]? with
    | none => none
    | some .done => none
    | some .r1 => some { touch s with ref := s.ref - 1, ops := s.ops.set i (if s.ref - 1 ≠ 0 then .r2 else .r3) }
    | some .r2 => some { touch s with dcnt := (s.dcnt + (m - 1)) % m, ops := s.ops.set i .done }
    | some .r3 => some { touch s with ops := s.ops.set i (if s.weak ≠ 0 then .r4 else .r5) }
    | some .r4 => some { touch s with dcnt := (s.dcnt + (m - 1)) % m, ops := s.ops.set i .r7 }
    | some .r5 => some { touch s with
        dcnt := (s.dcnt + (m - 1)) % m
        ops := s.ops.set i (if (s.dcnt + (m - 1)) % m = 0 then .r6 else .r7) }
    | some .r6 => some { s with freed := s.freed + 1, ops := s.ops.set i .r7 }
    | some .r7 => some { s with destroyed := s.destroyed + 1, ops := s.ops.set i .done }
    | some .w1 => some { touch s with weak := s.weak - 1, ops := s.ops.set i (if s.weak - 1 ≠ 0 then .w2 else .w3) }
    | some .w2 => some { touch s with dcnt := (s.dcnt + (m - 1)) % m, ops := s.ops.set i .done }
    | some .w3 => some { touch s with ops := s.ops.set i (if s.ref ≠ 0 then .w2 else .w5) }
    | some .w5 => some { touch s with
        dcnt := (s.dcnt + (m - 1)) % m
        ops := s.ops.set i (if (s.dcnt + (m - 1)) % m = 0 then .w6 else .done) }
    | some .w6 => some { s with freed := s.freed + 1, ops := s.ops.set i .done }
    | some .u1 => some { touch s with
        ref := s.ref + 1, strong := s.strong + 1, weakH := s.weakH + 1
        ops := s.ops.set i .done }

/-- A run of the machine. -/
def run (m : Nat) : St → List Act → Option St
  | s, [] => some s
  | s, a :: as => (step m s a).bind (fun s => run m s as)

/-- The states a run goes through, each with the step taken there. -/
def trace (m : Nat) : St → List Act → List (St × Act)
  | _, [] => []
  | s, a :: as => (s, a) :: (match step m s a with
    | some s' => trace m s' as
    | none => [])

/-- Number of operations in progress. -/
def active (s : St) : Nat := s.ops.countP (· ≠ .done)

/-- Nothing is in progress. -/
def quiet (s : St) : Bool := s.ops.all (· == .done)

end Arc
end Salticidae
