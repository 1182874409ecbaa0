/-
Model of the configuration objects of ConnPool, MsgNetwork and PeerNetwork (conn.h:388-482, network.h:160-194, network.h:552-589), of the
expressions C++ programs write with them, and of what the constructors of the networks take from them (conn.h:485-513, network.h:197-202,
network.h:591-596).

Classes are modelled with their static types: a setter inherited from a base class returns a reference of type base class to the
same object, and a reference to a base class converts to a derived class by the converting constructor.  Doubles are rationals.  Certificates
and keys given as pointers are numbers (which object); every pointer is given once, so that it has one owner.  The first failure
while TLS is set up is what the constructor throws.
-/
namespace Salticidae
namespace Setup

/-- ConnPool::Config, MsgNetwork::Config, PeerNetwork::Config, derived from each other in this order. -/
inductive Cls where
  | conn | msg | peer
  deriving DecidableEq, Repr

/-- Depth of the class. -/
def Cls.rank : Cls → Nat
  | .conn => 0
  | .msg => 1
  | .peer => 2

/-- PeerNetwork::IdentityMode, network.h:354-357. -/
inductive IdMode where
  | addrBased | certBased
  deriving DecidableEq, Repr

/-- The members of ConnPool::Config, conn.h:389-402. -/
structure ConnCfg where
  backlog : Int
  serverTimeout : Rat
  recvChunk : Nat
  maxRecvBuff : Nat
  maxSendBuff : Nat
  nworker : Nat
  enableTls : Bool
  certFile : String
  keyFile : String
  cert : Option Nat
  key : Option Nat
  skipCa : Bool
  verifyCb : Option Nat
  deriving DecidableEq

/-- ConnPool::Config(), conn.h:405-418. -/
def ConnCfg.new : ConnCfg := ⟨10, 2, 4096, 4096, 0, 1, false, "", "", none, none, true, none⟩

/-- The members of MsgNetwork::Config, network.h:160-165. -/
structure MsgCfg where
  maxMsgSize : Nat
  queueSize : Nat
  burst : Nat
  magic : BitVec 32
  deriving DecidableEq

/-- The members of PeerNetwork::Config, network.h:552-557. -/
structure PeerCfg where
  ping : Rat
  connTimeout : Rat
  allowUnknown : Bool
  idMode : IdMode
  deriving DecidableEq

/-- An object.  `m` and `p` are there only in objects of a class that has them. -/
structure Obj where
  cls : Cls
  c : ConnCfg
  m : MsgCfg
  p : PeerCfg
  deriving DecidableEq

/-- What MsgNetwork::Config(const ConnPool::Config &) gives its members, network.h:169-174. -/
def MsgCfg.new : MsgCfg := ⟨1024, 65536, 1000, 0⟩

/-- What PeerNetwork::Config(const MsgNet::Config &) gives its members, network.h:562-567. -/
def PeerCfg.new : PeerCfg := ⟨30, 180, false, .certBased⟩

/-- The setters; `tls_skip_ca_check` takes a pointer to a bool (`none`: null). -/
inductive Setting where
  | backlog (x : Int)
  | serverTimeout (x : Rat)
  | recvChunk (x : Nat)
  | nworker (x : Nat)
  | maxRecvBuff (x : Nat)
  | maxSendBuff (x : Nat)
  | enableTls (x : Bool)
  | certFile (x : String)
  | keyFile (x : String)
  | cert (x : Option Nat)
  | key (x : Option Nat)
  | skipCa (x : Option Bool)
  | verifyCb (x : Option Nat)
  | maxMsgSize (x : Nat)
  | queueSize (x : Nat)
  | burst (x : Nat)
  | magic (x : BitVec 32)
  | ping (x : Rat)
  | connTimeout (x : Rat)
  | idMode (x : IdMode)
  | allowUnknown (x : Bool)
  deriving DecidableEq

/-- The class a setter is a member of; its result is a reference to that class. -/
def Setting.cls : Setting → Cls
  | .maxMsgSize _ | .queueSize _ | .burst _ | .magic _ => .msg
  | .ping _ | .connTimeout _ | .idMode _ | .allowUnknown _ => .peer
  | _ => .conn

/-- The setters of ConnPool::Config (conn.h:420-483), MsgNetwork::Config (network.h:176-193), PeerNetwork::Config (network.h:570-588);
`none`: undefined behaviour (`msg_magic` has no return statement, network.h:191-193). -/
def set (o : Obj) : Setting → Option Obj
  | .backlog x => some { o with c.backlog := x }
  | .serverTimeout x => some { o with c.serverTimeout := x }
  | .recvChunk x => some { o with c.recvChunk := x }
  | .nworker x => some { o with c.nworker := max 1 x }
  | .maxRecvBuff x => some { o with c.maxRecvBuff := x }
  | .maxSendBuff x => some { o with c.maxSendBuff := x }
  | .enableTls x => some { o with c.enableTls := x }
  | .certFile x => some { o with c.certFile := x }
  | .keyFile x => some { o with c.keyFile := x }
  | .cert x => some { o with c.cert := x }
  | .key x => some { o with c.key := x }
  -- the pointer, not what it points to, is converted to bool (conn.h:474-477)
  | .skipCa x => some { o with c.skipCa := x.isSome }
  | .verifyCb x => some { o with c.verifyCb := x }
  | .maxMsgSize x => some { o with m.maxMsgSize := x }
  | .queueSize x => some { o with m.queueSize := x }
  | .burst x => some { o with m.burst := x }
  | .magic _ => none
  | .ping x => some { o with p.ping := x }
  | .connTimeout x => some { o with p.connTimeout := x }
  | .idMode x => some { o with p.idMode := x }
  | .allowUnknown x => some { o with p.allowUnknown := x }

/-- MsgNetwork::Config(const ConnPool::Config &), network.h:169-174. -/
def ofConn (c : ConnCfg) : Obj := ⟨.msg, c, MsgCfg.new, PeerCfg.new⟩

/-- PeerNetwork::Config(const MsgNet::Config &), network.h:562-567. -/
def ofMsg (c : ConnCfg) (m : MsgCfg) : Obj := ⟨.peer, c, m, PeerCfg.new⟩

/-- Initialise an object of class `t` from a reference of static type `st` to `o`: the (implicit) copy constructor of `t` if `st` is `t` or derived from
it, else converting constructors (network.h:168-174, network.h:560-567). -/
def convert (t st : Cls) (o : Obj) : Obj := match t, st with
  | .conn, _ => ⟨.conn, o.c, MsgCfg.new, PeerCfg.new⟩
  | .msg, .conn => ofConn o.c
  | .msg, _ => ⟨.msg, o.c, o.m, PeerCfg.new⟩
  | .peer, .conn => ofMsg (ofConn o.c).c (ofConn o.c).m
  | .peer, .msg => ofMsg o.c o.m
  | .peer, .peer => ⟨.peer, o.c, o.m, o.p⟩

/-- The default constructors: Config(): Config(ConnPool::Config()) {}, network.h:168; network.h:560. -/
def fresh : Cls → Obj
  | .conn => ⟨.conn, ConnCfg.new, MsgCfg.new, PeerCfg.new⟩
  | .msg => ofConn ConnCfg.new
  | .peer => ofMsg (ofConn ConnCfg.new).c (ofConn ConnCfg.new).m

/-- Expressions: `T::Config()`, a variable, `e.setter(x)`, `T::Config(e)`. -/
inductive Expr where
  | fresh (t : Cls)
  | var (i : Nat)
  | set (e : Expr) (s : Setting)
  | conv (t : Cls) (e : Expr)
  deriving DecidableEq

/-- Statements: `T::Config x(e);`, `e;`, `x = e;`, `new Network(ec, e)`. -/
inductive Stmt where
  | decl (t : Cls) (e : Expr)
  | eff (e : Expr)
  | assign (i : Nat) (e : Expr)
  | net (t : Cls) (e : Expr)
  deriving DecidableEq

/-- The static type of an expression, `none`: it does not compile.  `vars`: the types of the variables. -/
def typeOf (vars : List Cls) : Expr → Option Cls
  | .fresh t => some t
  | .var i => vars[i]?
  | .set e s => (typeOf vars e).bind fun st => if s.cls.rank ≤ st.rank then some s.cls else none
  | .conv t e => (typeOf vars e).map fun _ => t

/-- At most one converting constructor is applied implicitly. -/
def implicitly (st t : Cls) : Bool := t.rank ≤ st.rank + 1

/-- The types of the variables after a statement; `none`: it does not compile. -/
def typeStmt (vars : List Cls) : Stmt → Option (List Cls)
  | .decl t e => (typeOf vars e).map fun _ => vars ++ [t]
  | .eff e => (typeOf vars e).map fun _ => vars
  | .assign i e => (typeOf vars e).bind fun st => vars[i]?.bind fun t => if implicitly st t then some vars else none
  | .net t e => (typeOf vars e).bind fun st => if implicitly st t then some vars else none

/-- The compiler accepts the program. -/
def compiles : List Cls → List Stmt → Bool
  | _, [] => true
  | vars, s :: ss => match typeStmt vars s with
    | some vars' => compiles vars' ss
    | none => false

/-- Storage: all configuration objects made so far (`objs`), which of them are the variables. -/
structure Mem where
  objs : List Obj
  vars : List Nat
  deriving DecidableEq

/-- Evaluate an expression: a reference (the index of an object, the static type); `none`: undefined behaviour. -/
def eval (w : Mem) : Expr → Option (Mem × Nat × Cls)
  | .fresh t => some ({ w with objs := w.objs ++ [fresh t] }, w.objs.length, t)
  | .var i => w.vars[i]?.bind fun x => w.objs[x]?.map fun o => (w, x, o.cls)
  | .set e s => (eval w e).bind fun (w, x, _) => w.objs[x]?.bind fun o => (set o s).map fun o' => ({ w with objs := w.objs.set x o' }, x, s.cls)
  | .conv t e => (eval w e).bind fun (w, x, st) => w.objs[x]?.map fun o =>
    ({ w with objs := w.objs ++ [convert t st o] }, w.objs.length, t)

/-- One statement; the object that a network was given, if it is made. -/
def exec (w : Mem) : Stmt → Option (Mem × Option Obj)
  | .decl t e => (eval w e).bind fun (w, x, st) => w.objs[x]?.map fun o =>
    (⟨w.objs ++ [convert t st o], w.vars ++ [w.objs.length]⟩, none)
  | .eff e => (eval w e).map fun (w, _, _) => (w, none)
  | .assign i e => (eval w e).bind fun (w, x, st) => w.objs[x]?.bind fun o => w.vars[i]?.bind fun y => w.objs[y]?.map fun old =>
    ({ w with objs := w.objs.set y (convert old.cls st o) }, none)
  | .net t e => (eval w e).bind fun (w, x, st) => w.objs[x]?.map fun o => (w, some (convert t st o))

/-- Run a program; the configurations that its networks were given, in order. -/
def run (w : Mem) : List Stmt → Option (List Obj)
  | [] => some []
  | s :: ss => (exec w s).bind fun (w, out) => (run w ss).map fun outs => out.toList ++ outs

/-- Files and the OpenSSL checks the constructor depends on. -/
structure Env where
  /-- the certificate in a file, X509::create_from_pem_file -/
  certIn : String → Option Nat
  /-- the key in a file, SSL_CTX_use_PrivateKey_file -/
  keyIn : String → Option Nat
  /-- SSL_CTX_use_certificate accepts it -/
  certOk : Nat → Bool
  /-- SSL_CTX_use_PrivateKey accepts it -/
  keyOk : Nat → Bool
  /-- SSL_CTX_check_private_key -/
  matching : Nat → Nat → Bool

/-- What the constructor throws. -/
inductive Err where
  | x509 | loadCert | loadKey | notMatching
  deriving DecidableEq, Repr

/-- How the certificate of the other side is checked: not at all, by a callback, by OpenSSL. -/
inductive Verify where
  | all | callback (f : Nat) | openssl
  deriving DecidableEq, Repr

/-- TLS settings of a network. -/
structure TlsSetup where
  cert : Nat
  key : Nat
  verify : Verify
  deriving DecidableEq, Repr

/-- The certificate: the object if one is given, else the file (conn.h:499-503); `use_cert`. -/
def certOf (env : Env) (c : ConnCfg) : Except Err Nat :=
  match (match c.cert with | some x => some x | none => env.certIn c.certFile) with
  | none => .error .x509
  | some x => if env.certOk x then .ok x else .error .loadCert

/-- The key: the object if one is given, else the file (conn.h:505-508). -/
def keyOf (env : Env) (c : ConnCfg) : Except Err Nat := match c.key with
  | some x => if env.keyOk x then .ok x else .error .loadKey
  | none => match env.keyIn c.keyFile with
    | some x => .ok x
    | none => .error .loadKey

/-- ConnPool::ConnPool, conn.h:485-513, with TLSContext::set_verify (crypto.h:348-351). -/
def tlsOf (env : Env) (c : ConnCfg) : Except Err (Option TlsSetup) :=
  if c.enableTls then
    match certOf env c with
    | .error e => .error e
    | .ok cert => match keyOf env c with
      | .error e => .error e
      | .ok key =>
        if env.matching cert key then
          .ok (some ⟨cert, key, if c.skipCa then .all else match c.verifyCb with
            | some f => .callback f
            | none => .openssl⟩)
        else .error .notMatching
  else .ok none

end Setup
end Salticidae
