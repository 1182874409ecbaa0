/-
Model of RcObj / WeakObj (include/salticidae/ref.h:157-176, 204-380, 443-468 with `_RCCtl`) and of
BoxObj (ref.h:59-155), used from one thread.

Variables are slots of two arrays (strong handles, weak handles), all constructed, initially by the
default constructor; destroying a variable is `drop`, after which the slot counts as default
constructed again.  Objects do not themselves contain handles.  `size_t` counters do not wrap.
Touching a freed control block, decrementing a counter that is 0 or destroying an object twice is
undefined behaviour: the result is `none`.  A cast keeps the address (object identity).
-/
namespace Salticidae
namespace Rc

/-- A strong or weak handle: `obj` and `ctl`, ref.h:206-207, 288-289. -/
structure Handle where
  obj : Option Nat
  ctl : Option Nat
  deriving DecidableEq, Repr

/-- `_RCCtl`, ref.h:157-159; `alive` is cleared by `delete this`. -/
structure Ctl where
  ref : Nat
  weak : Nat
  alive : Bool
  deriving DecidableEq, Repr

/-- The heap and the variables.  `objs[o]` is true once object `o` has been destroyed. -/
structure Heap where
  objs : List Bool
  ctls : List Ctl
  strong : List Handle
  weak : List Handle
  deriving DecidableEq, Repr

/-- A default-constructed handle, ref.h:211, 299. -/
def Handle.null : Handle := ⟨none, none⟩

/-- `n` strong and `m` weak default-constructed handles. -/
def Heap.init (n m : Nat) : Heap := ⟨[], [], List.replicate n .null, List.replicate m .null⟩

/-- Access to a live control block. -/
def Heap.ctl? (h : Heap) (c : Nat) : Option Ctl :=
  match h.ctls[c]? with
  | some k => if k.alive then some k else none
  | none => none

/-- Write back a control block. -/
def Heap.putCtl (h : Heap) (c : Nat) (k : Ctl) : Heap := { h with ctls := h.ctls.set c k }

/-- `add_ref`, ref.h:160. -/
def addRef (h : Heap) (c : Nat) : Option Heap :=
  (h.ctl? c).map (fun k => h.putCtl c { k with ref := k.ref + 1 })

/-- `add_weak`, ref.h:161. -/
def addWeak (h : Heap) (c : Nat) : Option Heap :=
  (h.ctl? c).map (fun k => h.putCtl c { k with weak := k.weak + 1 })

/-- `release_ref`, ref.h:162-167. -/
def releaseRef (h : Heap) (c : Nat) : Option (Heap × Bool) :=
  match h.ctl? c with
  | none => none
  | some k =>
    if k.ref = 0 then none
    else
      let k := { k with ref := k.ref - 1 }
      if k.ref ≠ 0 then some (h.putCtl c k, false)
      else if k.weak ≠ 0 then some (h.putCtl c k, true)
      else some (h.putCtl c { k with alive := false }, true)

/-- `release_weak`, ref.h:168-172. -/
def releaseWeak (h : Heap) (c : Nat) : Option Heap :=
  match h.ctl? c with
  | none => none
  | some k =>
    if k.weak = 0 then none
    else
      let k := { k with weak := k.weak - 1 }
      if k.weak ≠ 0 then some (h.putCtl c k)
      else if k.ref ≠ 0 then some (h.putCtl c k)
      else some (h.putCtl c { k with alive := false })

/-- `default_delete`, ref.h:34-43: destroying twice is undefined; `delete nullptr` does nothing. -/
def destroy (h : Heap) : Option Nat → Option Heap
  | none => some h
  | some o => match h.objs[o]? with
    | some false => some { h with objs := h.objs.set o true }
    | _ => none

/-- `~_RcObjBase`, ref.h:363-366. -/
def dtor (h : Heap) (s : Handle) : Option Heap :=
  match s.ctl with
  | none => some h
  | some c => match releaseRef h c with
    | none => none
    | some (h, true) => destroy h s.obj
    | some (h, false) => some h

/-- `~_WeakObjBase`, ref.h:251. -/
def wdtor (h : Heap) (w : Handle) : Option Heap :=
  match w.ctl with
  | none => some h
  | some c => releaseWeak h c

/-- The common tail of the assignments (ref.h:329-347): the temporary `tmp` is swapped into slot `d`
and then destroyed. -/
def assign (h : Heap) (d : Nat) (tmp : Handle) : Option Heap :=
  match h.strong[d]? with
  | none => some h
  | some old => dtor { h with strong := h.strong.set d tmp } old

/-- The same for weak handles, ref.h:227-247. -/
def wassign (h : Heap) (d : Nat) (tmp : Handle) : Option Heap :=
  match h.weak[d]? with
  | none => some h
  | some old => wdtor { h with weak := h.weak.set d tmp } old

/-- `if (ctl) ctl->add_ref()`, ref.h:305-308, 443-449. -/
def copyRef (h : Heap) (s : Handle) : Option Heap :=
  match s.ctl with
  | none => some h
  | some c => addRef h c

/-- `if (ctl) ctl->add_weak()`, ref.h:213-216, 463-468. -/
def copyWeak (h : Heap) (s : Handle) : Option Heap :=
  match s.ctl with
  | none => some h
  | some c => addWeak h c

/-- What a program can do with its handles. -/
inductive Op where
  | create (d : Nat)          -- slot d = RcObj(new T)
  | createNull (d : Nat)      -- slot d = RcObj((T *)nullptr)
  | copy (d s : Nat)          -- slot d = slot s   (also: d = static_pointer_cast(s))
  | move (d s : Nat)          -- slot d = std::move(slot s)
  | castMove (d s : Nat)      -- slot d = static_pointer_cast(std::move(slot s))
  | drop (d : Nat)            -- destroy slot d
  | weakOf (w s : Nat)        -- weak w = slot s
  | weakCopy (w v : Nat)      -- weak w = weak v
  | weakMove (w v : Nat)      -- weak w = std::move(weak v)
  | weakDrop (w : Nat)        -- destroy weak w
  | upgrade (d w : Nat)       -- slot d = RcObj(weak w)
  deriving DecidableEq, Repr

/-- One operation.  Slots out of range do nothing. -/
def step (h : Heap) : Op → Option Heap
  -- `_RcObjBase(T *)`, ref.h:300, then move assignment, ref.h:340-347
  | .create d => match h.strong[d]? with
    | none => some h
    | some _ => assign { h with objs := h.objs ++ [false], ctls := h.ctls ++ [⟨1, 0, true⟩] } d
        ⟨some h.objs.length, some h.ctls.length⟩
  | .createNull d => match h.strong[d]? with
    | none => some h
    | some _ => assign { h with ctls := h.ctls ++ [⟨1, 0, true⟩] } d ⟨none, some h.ctls.length⟩
  -- copy assignment, ref.h:331-338
  | .copy d s =>
    if d = s then some h
    else match h.strong[s]?, h.strong[d]? with
      | some hs, some _ => (copyRef h hs).bind (fun h => assign h d hs)
      | _, _ => some h
  -- move assignment, ref.h:340-347: the move constructor clears only `ctl` of the source
  | .move d s =>
    if d = s then some h
    else match h.strong[s]?, h.strong[d]? with
      | some hs, some _ => assign { h with strong := h.strong.set s { hs with ctl := none } } d hs
      | _, _ => some h
  -- ref.h:452-461, then move assignment; `s` may be `d`
  | .castMove d s =>
    match h.strong[s]?, h.strong[d]? with
    | some hs, some _ => assign { h with strong := h.strong.set s { hs with ctl := none } } d hs
    | _, _ => some h
  | .drop d => assign h d .null
  -- `_WeakObjBase(const _RcObjBase &)`, ref.h:463-468
  | .weakOf w s =>
    match h.strong[s]?, h.weak[w]? with
    | some hs, some _ => (copyWeak h hs).bind (fun h => wassign h w hs)
    | _, _ => some h
  | .weakCopy w v =>
    if w = v then some h
    else match h.weak[v]?, h.weak[w]? with
      | some hv, some _ => (copyWeak h hv).bind (fun h => wassign h w hv)
      | _, _ => some h
  | .weakMove w v =>
    if w = v then some h
    else match h.weak[v]?, h.weak[w]? with
      | some hv, some _ => wassign { h with weak := h.weak.set v { hv with ctl := none } } w hv
      | _, _ => some h
  | .weakDrop w => wassign h w .null
  -- `_RcObjBase(const _WeakObjBase &)`, ref.h:349-361, then move assignment
  | .upgrade d w =>
    match h.weak[w]?, h.strong[d]? with
    | some hw, some _ =>
      (match hw.ctl with
      | none => assign h d .null
      | some c =>
        match h.ctl? c with
        | none => none
        | some k => if k.ref ≠ 0 then (addRef h c).bind (fun h => assign h d hw) else assign h d .null)
    | _, _ => some h

/-- A program. -/
def run : Heap → List Op → Option Heap
  | h, [] => some h
  | h, op :: ops => (step h op).bind (fun h => run h ops)

/-- `get_cnt`, ref.h:368. -/
def getCnt (h : Heap) (s : Handle) : Option Nat :=
  match s.ctl with
  | none => some 0
  | some c => (h.ctl? c).map (·.ref)

/-- `operator bool`, ref.h:371. -/
def isTrue (s : Handle) : Bool := s.obj.isSome

end Rc

namespace Box

/-- BoxObj variables and the objects they may own; `destroyed[o]` counts destructor runs; a pointer
returned by `unwrap` and not wrapped again is in `raw`. -/
structure Heap where
  destroyed : List Nat
  slots : List (Option Nat)
  raw : List Nat
  deriving DecidableEq, Repr

def Heap.init (n : Nat) : Heap := ⟨[], List.replicate n none, []⟩

/-- `~_BoxObj`, ref.h:82-84. -/
def dtor (h : Heap) : Option Nat → Heap
  | none => h
  | some o => { h with destroyed := h.destroyed.modify o (· + 1) }

/-- Move assignment from a temporary holding `p`, ref.h:89-96. -/
def assign (h : Heap) (d : Nat) (p : Option Nat) : Heap :=
  match h.slots[d]? with
  | none => h
  | some old => dtor { h with slots := h.slots.set d p } old

inductive Op where
  | create (d : Nat)       -- slot d = BoxObj(new T)
  | move (d s : Nat)       -- slot d = std::move(slot s)
  | unwrap (s : Nat)       -- p = slot s.unwrap()
  | wrap (d o : Nat)       -- slot d = BoxObj(p), for a pointer that was unwrapped
  | drop (d : Nat)
  | cast (d s : Nat)       -- slot d = static_pointer_cast(std::move(slot s))
  deriving DecidableEq, Repr

def step (h : Heap) : Op → Heap
  | .create d => match h.slots[d]? with
    | none => h
    | some _ => assign { h with destroyed := h.destroyed ++ [0] } d (some h.destroyed.length)
  -- ref.h:68-71, 89-96
  | .move d s =>
    if d = s then h
    else match h.slots[s]?, h.slots[d]? with
      | some p, some _ => assign { h with slots := h.slots.set s none } d p
      | _, _ => h
  -- ref.h:100-104
  | .unwrap s => match h.slots[s]? with
    | some (some o) => { h with slots := h.slots.set s none, raw := o :: h.raw }
    | _ => h
  -- ref.h:66; only for a pointer the caller owns
  | .wrap d o => match h.slots[d]? with
    | some _ => if o ∈ h.raw then assign { h with raw := h.raw.erase o } d (some o) else h
    | none => h
  | .drop d => assign h d none
  -- ref.h:150-155: the source keeps its pointer
  | .cast d s =>
    match h.slots[s]?, h.slots[d]? with
    | some p, some _ => assign h d p
    | _, _ => h

def run : Heap → List Op → Heap
  | h, [] => h
  | h, op :: ops => run (step h op) ops

end Box
end Salticidae
