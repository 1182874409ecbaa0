/-
Model of the destruction of a network: MsgNetwork, ClientNetwork or PeerNetwork (network.h, conn.h), with its threads, for any number of workers.

An object is three layers of members: those of ConnPool, those of MsgNetwork, and (`top`) those of ClientNetwork or PeerNetwork.  The destructor of a C++ object runs, from the most derived class to
ConnPool: the body of the class's destructor, the destructors of its members; and from then on virtual functions are those of the base class.  The threads of the network are the
workers 0, …, workers - 1 (worker 0 is the dispatcher); what they do is jobs, which are the execution of member functions: a member function of a layer uses members of this layer and of those below.
A virtual function (on_read, on_worker_setup, on_worker_teardown, on_dispatcher_setup, on_dispatcher_teardown) is that of the layer the object has when the job begins; others
(`direct`) are of the layer they were written in: deferred sends of a ClientNetwork (network.h:1391-1400), everything a PeerNetwork posts to the dispatcher, its handlers and its timers.

`log` is a record of what happened; nothing reads it.

Simplified: the destructor, start and stop are called by one thread of the program, and the program does not use a network that is being destroyed; the functions of the user's loop
(handlers of messages, callbacks) run in that thread too, so never during these calls.  A thread that was asked to stop (ec.stop()) ends after its job; jobs that do not touch
members of the network are left out.  stop() is not called by a thread of the network.  Connections are not modelled: releasing those that are open (conn.h:571-578) is one step, which calls virtual functions.
-/
namespace Salticidae
namespace NetGone

/-- The classes an object is made of; a class contains those below. -/
inductive Layer where
  | pool  -- ConnPool
  | msg   -- MsgNetwork
  | top   -- ClientNetwork, PeerNetwork
  deriving DecidableEq, Repr

inductive Kind where
  | msg | client | peer
  deriving DecidableEq, Repr

/-- The layers whose members a function of layer v uses. -/
def Layer.uses : Layer → List Layer
  | .pool => [.pool]
  | .msg => [.msg, .pool]
  | .top => [.top, .msg, .pool]

/-- The most derived layer of a network. -/
def Kind.layer : Kind → Layer
  | .msg => .msg
  | .client => .top
  | .peer => .top

/-- What the program's thread is going to do. -/
inductive U where
  | enter            -- stop_workers, conn.h:559-560
  | ask (i : Nat)    -- conn.h:563, 567: the thread is asked to end
  | join (i : Nat)   -- conn.h:564, 570
  | release          -- conn.h:571-578
  | members (l : Layer)  -- members of a layer are destroyed
  | vptr (l : Layer)     -- the object is one of layer l
  | done             -- the destructor returns
  deriving DecidableEq, Repr

/-- The rest of stop_workers, conn.h:562-578, for n workers. -/
def stopSteps (n : Nat) : List U :=
  [.ask 0, .join 0] ++ ((List.range' 1 (n - 1)).map .ask ++ ((List.range' 1 (n - 1)).map .join ++ [.release]))

/-- ~MsgNetwork, network.h:196 (stop is stop_workers, 265), and ~ConnPool, conn.h:544 (stop, 581-588, begins with stop_workers). -/
def msgDtor : List U := [.enter, .members .msg, .vptr .pool, .enter, .members .pool, .done]

/-- The destructors: ClientNetwork has none of its own (network.h:273-311); ~PeerNetwork, network.h:612. -/
def dtor : Kind → List U
  | .msg => msgDtor
  | .client => [.members .top, .vptr .msg] ++ msgDtor
  | .peer => [.enter, .members .top, .vptr .msg] ++ msgDtor

/-- A worker thread. -/
structure Thread where
  running : Bool
  asked : Bool
  job : List Layer   -- what the job it does is still going to use
  deriving DecidableEq, Repr

inductive Ev where
  | use (by_ : Option Nat) (l : Layer)  -- a thread (none: the program's) uses members of a layer
  | gone (l : Layer)                    -- they are destroyed
  | returned                            -- the destructor has returned
  deriving DecidableEq, Repr

structure St where
  sys : Nat              -- system_state
  vt : Layer             -- which layer's virtual functions the object has
  th : Nat → Thread
  todo : List U
  destroyed : Bool       -- the destructor has been called
  log : List Ev

/-- A new network, network.h:198-232, conn.h:486-542. -/
def init (k : Kind) : St where
  sys := 0
  vt := k.layer
  th := fun _ => ⟨false, false, []⟩
  todo := []
  destroyed := false
  log := []

def upd (f : Nat → Thread) (i : Nat) (x : Thread) : Nat → Thread := fun j => if j = i then x else f j

inductive Act where
  | start          -- start()
  | stop           -- stop()
  | destroy        -- the destructor
  | go             -- the program's thread continues with what it is doing
  | virt (i : Nat)     -- thread i begins a job: a virtual function
  | direct (i : Nat)   -- … or another function of the most derived class
  | use (i : Nat)      -- it uses members
  | exit (i : Nat)     -- it ends
  deriving DecidableEq, Repr

/-- One step of the program's thread inside stop() or the destructor. -/
def goStep (n : Nat) (s : St) : List U → Option St
  | [] => none
  | .enter :: r => if s.sys = 1 then some { s with sys := 2, todo := stopSteps n ++ r } else some { s with todo := r }
  | .ask i :: r => some { s with th := upd s.th i { s.th i with asked := true }, todo := r }
  | .join i :: r => if (s.th i).running then none else some { s with todo := r }
  | .release :: r => some { s with log := s.log ++ s.vt.uses.map (.use none), todo := r }
  | .members l :: r => some { s with log := s.log ++ [.gone l], todo := r }
  | .vptr l :: r => some { s with vt := l, todo := r }
  | .done :: r => some { s with log := s.log ++ [.returned], todo := r }

/-- Thread i begins a job. -/
def job (s : St) (i : Nat) (l : Layer) : Option St :=
  if (s.th i).running ∧ (s.th i).job = [] then some { s with th := upd s.th i { s.th i with job := l.uses } } else none

def step (k : Kind) (n : Nat) (s : St) : Act → Option St
  | .start =>  -- conn.h:549-556
    if s.todo = [] ∧ s.destroyed = false then
      if s.sys = 0 then some { s with sys := 1, th := fun i => if i < n then ⟨true, false, []⟩ else s.th i } else some s
    else none
  | .stop => if s.todo = [] ∧ s.destroyed = false then some { s with todo := [.enter] } else none
  | .destroy => if s.todo = [] ∧ s.destroyed = false then some { s with todo := dtor k, destroyed := true } else none
  | .go => goStep n s s.todo
  | .virt i => job s i s.vt
  | .direct i => job s i k.layer
  | .use i =>
    match (s.th i).running, (s.th i).job with
    | true, l :: r => some { s with th := upd s.th i { s.th i with job := r }, log := s.log ++ [.use (some i) l] }
    | _, _ => none
  | .exit i =>
    if (s.th i).running ∧ (s.th i).asked ∧ (s.th i).job = [] then some { s with th := upd s.th i { s.th i with running := false } } else none

def run (k : Kind) (n : Nat) : St → List Act → Option St
  | s, [] => some s
  | s, a :: as => (step k n s a).bind fun s => run k n s as

end NetGone
end Salticidae
