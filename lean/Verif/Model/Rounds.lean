import Verif.Model.ThreadsController
import Verif.Model.Lifecycle
/-
The threads that a receiver starts, round after round (/repo/Receiver.cpp:447-478, 287-309;
/repo/WdtThread.cpp:27-48; /repo/util/ThreadsController.cpp:147-171, 234-246).

What the threads do is in other files; here a running thread may mark its own state as it likes and end
at any moment.  `startThread` can only fail by its checks (that `std::thread` finds no resources is not
modelled).
-/
namespace Wdt

/-- Where the thread that called `runForever` or `transferAsync` is: before `start`; in the loop that
starts the threads (Receiver.cpp:461-463), next is thread `i`; returned from `start` (464-466, 486); in the
loop that joins them (470-473, or 305-307 in `finish`); after that loop (474); returned from `finish`. -/
inductive RdPc where
  | before | start (i : Nat) | returned | join (i : Nat) | joined | ended
deriving DecidableEq, Repr

/-- The receiver.  `ptr t`: `threadPtr_` of thread object `t` is set (WdtThread.h:118); `alive t`: how many
threads are executing `start` of that object; `mark`: `threadStateMap_` (ThreadsController.h:360);
`status`: `transferStatus_` (WdtBase.h:144-149);
`starts t`: how many threads have been started for the object so far and `round`: how often the controller
was reset (both only to state properties). -/
structure RdSys where
  n : Nat
  joinable : Bool
  pc : RdPc := .before
  ptr : Nat → Bool := fun _ => false
  alive : Nat → Nat := fun _ => 0
  mark : Nat → Mark := fun _ => .running
  starts : Nat → Nat := fun _ => 0
  round : Nat := 0
  status : TStatus := .notStarted

/-- `main`: the next step of the calling thread; `mark t m`: a thread of object `t` marks its state
(ReceiverThread.cpp:924, 933, 938, 950, 976) or deregisters (ReceiverThread.cpp:1003); `stop t`: it returns from `start`;
`allEnd t`: it ends the session (ReceiverThread.cpp:1004, Receiver.cpp:96-97; simplified: not only the last
thread may do that). -/
inductive RdEv where
  | main
  | mark (t : Nat) (m : Mark)
  | stop (t : Nat)
  | allEnd (t : Nat)
deriving DecidableEq, Repr

/-- `WdtThread::startThread` (WdtThread.cpp:27-36). -/
def startThread (s : RdSys) (t : Nat) : Except Fault RdSys :=
  if s.ptr t = true then .error .check
  else if s.mark t ≠ .running then .error .check
  else .ok { s with
    ptr := upd s.ptr t true, alive := upd s.alive t (s.alive t + 1), starts := upd s.starts t (s.starts t + 1) }

/-- `WdtThread::finish` (WdtThread.cpp:38-47): without a thread an error, which the callers ignore; else it
waits until the thread has ended. -/
def finishThread (s : RdSys) (t : Nat) : Res RdSys :=
  if s.ptr t = false then .ok s
  else if s.alive t ≠ 0 then .blocked
  else .ok { s with ptr := upd s.ptr t false }

/-- `ThreadsController::reset` (ThreadsController.cpp:234-246), the part about the states of the threads. -/
def resetMarks (s : RdSys) : RdSys := { s with mark := fun _ => .running, round := s.round + 1 }

/-- One step.  `main` in `start`: Receiver.cpp:459-478; in `finish`: Receiver.cpp:305-309. -/
def rdStep (s : RdSys) : RdEv → Res RdSys
  | .main =>
    match s.pc with
    | .before => .ok { s with pc := .start 0, status := .ongoing }
    | .start i =>
      if i < s.n then
        match startThread s i with
        | .ok s' => .ok { s' with pc := .start (i + 1) }
        | .error f => .fault f
      else if s.joinable = true then .ok { s with pc := .returned }
      else .ok { s with pc := .join 0 }
    | .returned => .ok { s with pc := .join 0 }
    | .join i =>
      if i < s.n then
        match finishThread s i with
        | .ok s' => .ok { s' with pc := .join (i + 1) }
        | .fault f => .fault f
        | .blocked => .blocked
      else .ok { s with pc := .joined }
    | .joined =>
      if s.joinable = true then .ok { s with pc := .ended, status := .joined }
      else .ok { resetMarks s with pc := .start 0, status := .notStarted }
    | .ended => .blocked
  | .mark t m => if 0 < s.alive t then .ok { s with mark := upd s.mark t m } else .blocked
  | .stop t => if 0 < s.alive t then .ok { s with alive := upd s.alive t (s.alive t - 1) } else .blocked
  | .allEnd t => if 0 < s.alive t then .ok { s with status := .finished } else .blocked

/-- `hasStarted` (WdtBase.cpp:174-177). -/
def RdSys.hasStarted (s : RdSys) : Bool := decide (s.status ≠ .notStarted)

/-- Steps one after the other. -/
def rdRun : RdSys → List RdEv → Res RdSys
  | s, [] => .ok s
  | s, e :: es =>
    match rdStep s e with
    | .ok s' => rdRun s' es
    | .fault f => .fault f
    | .blocked => .blocked

/-- A receiver with `n` threads after `init`, or, with `joinable`, a sender whose threads are made
(Sender.cpp:345-346) and then started and joined in the same way (Sender.cpp:360-362, 182-184;
SenderThread.h:83); each thread registered itself when it was made
(ReceiverThread.cpp:103, ThreadsController.cpp:147-152). -/
def rdInit (n : Nat) (joinable : Bool) : RdSys := { n := n, joinable := joinable }

end Wdt
