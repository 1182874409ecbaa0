import Verif.Model.EvQueue
/-
Model of `NotifyFd` (include/salticidae/event.h:546-596): the descriptor by which a queue wakes up
its consumers, in both variants of the code.

Linux (event.h:549-563): an eventfd, made non-blocking.  The kernel's object is a counter; a write
adds 1 unless the counter would pass 2^64-2 (then it fails with EAGAIN); a read takes it all and
fails with EAGAIN when it is 0; it is readable when it is not 0.  Each operation of the class is one
system call, so that any schedule of any number of threads is a sequence of operations.

macOS (event.h:570-592): a pipe.  `int fds[0]` has no elements: `fds[0]` and `fds[1]` lie behind its
end.  The compiler places `dummy` there, so the eight bytes that are written into the pipe are the
two descriptors, and the reads overwrite the descriptors with what comes out of the pipe.  The model
takes this layout as given (and records that the bounds were passed).  A descriptor is represented
by the four bytes of its number.  A write of eight bytes into a pipe is atomic; as only the reading
end is non-blocking, a write waits while there is no room.  `reset` is a loop of reads, between which
other threads may run: one read is one step.  The bytes of the object that a system call takes or
sets are taken or set in one step.
Not modelled: signals (EINTR), and that pipe or eventfd fail other than by throwing.
-/
namespace Salticidae
namespace Notify

/-- What threads do with a notifier. -/
inductive Op where
  | notify
  | reset
  deriving DecidableEq, Repr

/-! The eventfd. -/

/-- The largest value of an eventfd's counter: 2^64-2. -/
def counterMax : Nat := 2 ^ 64 - 2

/-- `write(fd, &dummy, 8)` with dummy = 1 (event.h:560, src/event.cpp:6): the new counter. -/
def evWrite (c : Nat) : Nat := if c + 1 ≤ counterMax then c + 1 else c

/-- `read(fd, &_, 8) == 8` (event.h:556-559): the new counter, and the result of `reset`. -/
def evRead (c : Nat) : Nat × Bool := if 0 < c then (0, true) else (c, false)

/-- One operation: the new counter and, of a reset, its result. -/
def evStep (c : Nat) : Op → Nat × Option Bool
  | .notify => (evWrite c, none)
  | .reset => ((evRead c).1, some (evRead c).2)

/-- A history: the counter and the results of the resets, from `eventfd(0, EFD_NONBLOCK)`, event.h:553. -/
def evRun (ops : List Op) : Nat × List Bool :=
  ops.foldl (fun s o => ((evStep s.1 o).1, s.2 ++ (evStep s.1 o).2.toList)) (0, [])

/-! The pipe. -/

/-- A byte. -/
abbrev Byte := BitVec 8

/-- The notifier and its pipe. -/
structure Pipe where
  mem : List Byte          -- the object: eight bytes, `fds` and `dummy` (event.h:571-572)
  rd : List Byte           -- the descriptor of the reading end
  wr : List Byte           -- the descriptor of the writing end
  cap : Nat                -- how many bytes the pipe holds
  buf : List Byte          -- the bytes in the pipe
  outside : Bool           -- memory outside an array has been accessed
  stray : List (List Byte) -- ghost: descriptors that system calls got and that are not the pipe's
  closed : List (List Byte)  -- descriptors closed, in turn
  deriving DecidableEq, Repr

/-- `fds[i]` (i = 0, 1): four bytes, behind the end of an array without elements, event.h:571. -/
def Pipe.fds (s : Pipe) (i : Nat) : List Byte := (s.mem.drop (4 * i)).take 4

/-- `dummy`: at the address of `fds`, event.h:572. -/
def Pipe.dummy (s : Pipe) : List Byte := s.mem.take 8

/-- `pipe(fds)` (event.h:575) has given `rd` and `wr`. -/
def Pipe.make (rd wr : List Byte) (cap : Nat) : Pipe := ⟨rd ++ wr, rd, wr, cap, [], true, [], []⟩

/-- Why a system call did not do what it was to do. -/
inductive Out where
  | ok
  | blocked     -- it does not return: no room, and the descriptor is blocking
  | badFd       -- the descriptor is not this end of the pipe
  | again       -- EAGAIN: nothing to read, and the descriptor is non-blocking
  deriving DecidableEq, Repr

/-- `write(fds[1], dummy, 8)`, event.h:585-587. -/
def Pipe.write (s : Pipe) : Pipe × Out :=
  if s.fds 1 = s.wr then
    if s.buf.length + 8 ≤ s.cap then ({ s with buf := s.buf ++ s.dummy }, .ok) else (s, .blocked)
  else ({ s with stray := s.stray ++ [s.fds 1] }, .badFd)

/-- `read(fds[0], dummy, 8)`, event.h:581: as many bytes as there are, at most eight, are put into `dummy`. -/
def Pipe.read (s : Pipe) : Pipe × Out :=
  if s.fds 0 = s.rd then
    if s.buf = [] then (s, .again)
    else ({ s with buf := s.buf.drop 8, mem := s.buf.take 8 ++ s.mem.drop (s.buf.take 8).length }, .ok)
  else ({ s with stray := s.stray ++ [s.fds 0] }, .badFd)

/-- `reset`, event.h:579-584, when no other thread runs meanwhile: reads until one fails (`n` bounds
the number of reads; `none`: not finished by then).  It returns true. -/
def Pipe.reset : Nat → Pipe → Option (Pipe × Bool)
  | 0, _ => none
  | n + 1, s => if s.read.2 = .ok then Pipe.reset n s.read.1 else some (s.read.1, true)

/-- The destructor, event.h:589-592. -/
def Pipe.destroy (s : Pipe) : Pipe := { s with closed := s.closed ++ [s.fds 0, s.fds 1] }

/-- `uv_poll` of `read_fd()`, event.h:588. -/
def Pipe.readable (s : Pipe) : Bool := s.fds 0 == s.rd && !s.buf.isEmpty

/-- The steps of any number of threads. -/
inductive Sys where
  | write   -- the write of a `notify` (it makes no step while it is blocked)
  | read    -- a read of a `reset`
  deriving DecidableEq, Repr

/-- One step, and what came of it. -/
def Pipe.step (s : Pipe) : Sys → Pipe × Out
  | .write => s.write
  | .read => s.read

/-- A history, with what came of each step. -/
def Pipe.run (s : Pipe) : List Sys → Pipe × List (Sys × Out)
  | [] => (s, [])
  | a :: as => (((s.step a).1.run as).1, (a, (s.step a).2) :: ((s.step a).1.run as).2)

/-- What a constructor leaves behind: the descriptors that it has opened and not closed, and the object unless it threw. -/
structure Made where
  left : List (List Byte)
  obj : Option Pipe
  deriving DecidableEq, Repr

/-- The constructor, event.h:574-578: `pipe` fails, or gives two descriptors and then `fcntl` succeeds or
not.  When it throws, the destructor is not run: the object has not been made. -/
def Pipe.construct (cap : Nat) (pipe : Option (List Byte × List Byte)) (fcntl : Bool) : Made :=
  match pipe with
  | none => ⟨[], none⟩
  | some (rd, wr) => ⟨[rd, wr], if fcntl then some (Pipe.make rd wr cap) else none⟩

end Notify

namespace EvQ

/-- One step of the event-driven queues with the pipe: as with the eventfd (Model/EvQueue.lean), but
`reset` reads one notification at a time and goes on until there is none (event.h:579-584), and it
returns true, so that both kinds of queue go on (event.h:615, 664).  `fd` counts the notifications in
the pipe. -/
def stepPipe {α : Type} (s : St α) (a : Act α) : Option (St α) :=
  match a with
  | .cons j =>
    if s.cons[j]? = some .reset ∧ 0 < s.fd then some { s with fd := s.fd - 1 } else step false s (.cons j)
  | a => step false s a

/-- A run of that machine. -/
def runPipe {α : Type} : St α → List (Act α) → Option (St α)
  | s, [] => some s
  | s, a :: as => (stepPipe s a).bind (fun s => runPipe s as)

end EvQ
end Salticidae
