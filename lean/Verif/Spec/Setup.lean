import Verif.Model.Setup
/-
What a program that configures networks means: a configuration is the list of the settings made on it; the last one for an option counts.
-/
namespace Salticidae
namespace Spec.Setup
open Salticidae.Setup (Cls Setting Expr Stmt IdMode Obj)

/-- All options of all networks. -/
structure Values where
  backlog : Int
  serverTimeout : Rat
  recvChunk : Nat
  maxRecvBuff : Nat
  maxSendBuff : Nat
  nworker : Nat
  enableTls : Bool
  certFile : String
  keyFile : String
  cert : Option Nat
  key : Option Nat
  skipCa : Bool
  verifyCb : Option Nat
  maxMsgSize : Nat
  queueSize : Nat
  burst : Nat
  magic : BitVec 32
  ping : Rat
  connTimeout : Rat
  allowUnknown : Bool
  idMode : IdMode

/-- Options that are not set. -/
def standard : Values where
  backlog := 10
  serverTimeout := 2
  recvChunk := 4096
  maxRecvBuff := 4096
  maxSendBuff := 0
  nworker := 1
  enableTls := false
  certFile := ""
  keyFile := ""
  cert := none
  key := none
  skipCa := true
  verifyCb := none
  maxMsgSize := 1024
  queueSize := 65536
  burst := 1000
  magic := 0
  ping := 30
  connTimeout := 180
  allowUnknown := false
  idMode := .certBased

/-- One setting.  There is always at least one worker; a pointer to a bool stands for the bool, null for `false`. -/
def apply (v : Values) : Setting → Values
  | .backlog x => { v with backlog := x }
  | .serverTimeout x => { v with serverTimeout := x }
  | .recvChunk x => { v with recvChunk := x }
  | .nworker x => { v with nworker := if x = 0 then 1 else x }
  | .maxRecvBuff x => { v with maxRecvBuff := x }
  | .maxSendBuff x => { v with maxSendBuff := x }
  | .enableTls x => { v with enableTls := x }
  | .certFile x => { v with certFile := x }
  | .keyFile x => { v with keyFile := x }
  | .cert x => { v with cert := x }
  | .key x => { v with key := x }
  | .skipCa x => { v with skipCa := x.getD false }
  | .verifyCb x => { v with verifyCb := x }
  | .maxMsgSize x => { v with maxMsgSize := x }
  | .queueSize x => { v with queueSize := x }
  | .burst x => { v with burst := x }
  | .magic x => { v with magic := x }
  | .ping x => { v with ping := x }
  | .connTimeout x => { v with connTimeout := x }
  | .idMode x => { v with idMode := x }
  | .allowUnknown x => { v with allowUnknown := x }

/-- The options after a list of settings. -/
def value (h : List Setting) : Values := h.foldl apply standard

/-- A network was given these values. -/
def Given (o : Obj) (t : Cls) (v : Values) : Prop :=
  o.cls = t ∧
  (o.c.backlog = v.backlog ∧ o.c.serverTimeout = v.serverTimeout ∧ o.c.recvChunk = v.recvChunk ∧ o.c.maxRecvBuff = v.maxRecvBuff ∧
    o.c.maxSendBuff = v.maxSendBuff ∧ o.c.nworker = v.nworker ∧ o.c.enableTls = v.enableTls ∧ o.c.certFile = v.certFile ∧
    o.c.keyFile = v.keyFile ∧ o.c.cert = v.cert ∧ o.c.key = v.key ∧ o.c.skipCa = v.skipCa ∧ o.c.verifyCb = v.verifyCb) ∧
  (t ≠ .conn → o.m.maxMsgSize = v.maxMsgSize ∧ o.m.queueSize = v.queueSize ∧ o.m.burst = v.burst ∧ o.m.magic = v.magic) ∧
  (t = .peer → o.p.ping = v.ping ∧ o.p.connTimeout = v.connTimeout ∧ o.p.allowUnknown = v.allowUnknown ∧ o.p.idMode = v.idMode)

/-- Configuration objects: their class and what was set; the variables. -/
structure Mem where
  objs : List (Cls × List Setting)
  vars : List Nat

/-- What is not allowed: `loses`: an object of static type `st` is made an object of class `t`, but settings between these classes were made on it;
`bad`: this setter. -/
structure Excuse where
  loses : Bool
  bad : Setting → Bool

/-- Settings made on an object that the compiler, looking at the static type `st`, does not see, although `t` has them. -/
def unseen (t st : Cls) (h : List Setting) : Bool := h.any fun s => st.rank < s.cls.rank && s.cls.rank ≤ t.rank

/-- An object of class `t` is made from one with these settings: those that `t` has. -/
def carry (t : Cls) (h : List Setting) : List Setting := h.filter fun s => s.cls.rank ≤ t.rank

/-- Copying: `none`: excused. -/
def copy (ex : Excuse) (t st : Cls) (h : List Setting) : Option (List Setting) :=
  if ex.loses && unseen t st h then none else some (carry t h)

/-- The meaning of an expression: which object, its static type; `none`: excused (or it does not compile). -/
def eval (ex : Excuse) (w : Mem) : Expr → Option (Mem × Nat × Cls)
  | .fresh t => some ({ w with objs := w.objs ++ [(t, [])] }, w.objs.length, t)
  | .var i => w.vars[i]?.bind fun x => w.objs[x]?.map fun o => (w, x, o.1)
  | .set e s => if ex.bad s then none else (eval ex w e).bind fun (w, x, _) => w.objs[x]?.map fun o =>
    ({ w with objs := w.objs.set x (o.1, o.2 ++ [s]) }, x, s.cls)
  | .conv t e => (eval ex w e).bind fun (w, x, st) => w.objs[x]?.bind fun o => (copy ex t st o.2).map fun h =>
    ({ w with objs := w.objs ++ [(t, h)] }, w.objs.length, t)

/-- The meaning of a statement. -/
def exec (ex : Excuse) (w : Mem) : Stmt → Option (Mem × Option (Cls × List Setting))
  | .decl t e => (eval ex w e).bind fun (w, x, st) => w.objs[x]?.bind fun o => (copy ex t st o.2).map fun h =>
    (⟨w.objs ++ [(t, h)], w.vars ++ [w.objs.length]⟩, none)
  | .eff e => (eval ex w e).map fun (w, _, _) => (w, none)
  | .assign i e => (eval ex w e).bind fun (w, x, st) => w.objs[x]?.bind fun o => w.vars[i]?.bind fun y => w.objs[y]?.bind fun old =>
    (copy ex old.1 st o.2).map fun h => ({ w with objs := w.objs.set y (old.1, h) }, none)
  | .net t e => (eval ex w e).bind fun (w, x, st) => w.objs[x]?.bind fun o => (copy ex t st o.2).map fun h => (w, some (t, h))

/-- The meaning of a program: the networks it makes, each with the settings it is to have. -/
def run (ex : Excuse) (w : Mem) : List Stmt → Option (List (Cls × List Setting))
  | [] => some []
  | s :: ss => (exec ex w s).bind fun (w, out) => (run ex w ss).map fun outs => out.toList ++ outs

/-- No excuses. -/
def strict : Excuse := ⟨false, fun _ => false⟩

/-- `msg_magic`, and turning the check of certificates on through `tls_skip_ca_check`. -/
def badSetting : Setting → Bool
  | .magic _ => true
  | .skipCa (some false) => true
  | _ => false

/-- The cases that go wrong. -/
def lenient : Excuse := ⟨true, badSetting⟩

/-- No conversion to a derived class, no bad setter (if these matter). -/
def plain (ex : Excuse) (vars : List Cls) : Expr → Bool
  | .fresh _ => true
  | .var _ => true
  | .set e s => !ex.bad s && plain ex vars e
  | .conv t e => plain ex vars e && (!ex.loses || (Salticidae.Setup.typeOf vars e).all fun st => t.rank ≤ st.rank)

/-- The same for a statement. -/
def plainStmt (ex : Excuse) (vars : List Cls) : Stmt → Bool
  | .decl t e => plain ex vars (.conv t e)
  | .eff e => plain ex vars e
  | .assign i e => (vars[i]?).all fun t => plain ex vars (.conv t e)
  | .net t e => plain ex vars (.conv t e)

/-- The same for a program. -/
def plainRun (ex : Excuse) : List Cls → List Stmt → Bool
  | _, [] => true
  | vars, s :: ss => plainStmt ex vars s && (Salticidae.Setup.typeStmt vars s).all fun vars' => plainRun ex vars' ss

/-- What C programs do with configurations (src/network.cpp:11-80, 210-235, 337-342). -/
inductive CCall where
  | configNew (t : Cls)
  | set (i : Nat) (s : Setting)
  | netNew (t : Cls) (i : Nat)

/-- The settings that have a C function. -/
def inC : Setting → Bool
  | .magic _ | .skipCa _ | .verifyCb _ | .allowUnknown _ => false
  | _ => true

/-- A C program is type correct: `vars` are the configurations made so far. -/
def cTyped : List Cls → List CCall → Bool
  | _, [] => true
  | vars, .configNew t :: cs => t ≠ .conn && cTyped (vars ++ [t]) cs
  | vars, .set i s :: cs => inC s && (vars[i]?).any (fun t => s.cls.rank ≤ t.rank) && cTyped vars cs
  | vars, .netNew t i :: cs => t ≠ .conn && (vars[i]?).any (fun k => t.rank ≤ k.rank) && cTyped vars cs

/-- The calls as statements. -/
def CCall.stmt : CCall → Stmt
  | .configNew t => .decl t (.fresh t)
  | .set i s => .eff (.set (.var i) s)
  | .netNew t i => .net t (.var i)

/-- What a network is to do about TLS with these values. -/
def TlsAsked (env : Salticidae.Setup.Env) (v : Values) : Except Salticidae.Setup.Err (Option Salticidae.Setup.TlsSetup) → Prop
  | .ok none => v.enableTls = false
  | .ok (some t) => v.enableTls = true ∧
    (match v.cert with
      | some x => t.cert = x
      | none => env.certIn v.certFile = some t.cert) ∧
    (match v.key with
      | some x => t.key = x
      | none => env.keyIn v.keyFile = some t.key) ∧
    env.matching t.cert t.key = true ∧
    (t.verify = .all ↔ v.skipCa = true) ∧ (∀ f, t.verify = .callback f ↔ v.skipCa = false ∧ v.verifyCb = some f)
  | .error _ => v.enableTls = true ∧
    ¬ ∃ c k, (match v.cert with
        | some x => c = x
        | none => env.certIn v.certFile = some c) ∧
      (match v.key with
        | some x => k = x ∧ env.keyOk x = true
        | none => env.keyIn v.keyFile = some k) ∧
      env.certOk c = true ∧ env.matching c k = true

end Spec.Setup
end Salticidae
