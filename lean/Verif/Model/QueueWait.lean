import Verif.Model.ThreadsController
/-
Model of who waits for whom at the queue of a sender: the sender threads in
`DirectorySourceQueue::getNextSource`, which sleep on `conditionNotEmpty_` when there is nothing
to send, those that put blocks back, and the thread that discovers files or asks the
application's generator for more of them (/repo/util/DirectorySourceQueue.cpp:194-236, 412-439,
551-554, 592-621, 676-750, Sender.cpp:267-283, 341-364).

Which blocks these are does not matter here (C16, C17), only how many.  Every step is what a
thread does while it holds `mutex_` once, or one call of `notify_one`/`notify_all` without it.
-/
namespace Wdt

/-- What a sender thread is doing. -/
inductive QPh where
  /-- created (and so registered as running, SenderThread.h:83), not started -/
  | fresh
  /-- outside the queue: connecting, sending, reading, … -/
  | working
  /-- in `conditionNotEmpty_.wait` (DirectorySourceQueue.cpp:688) -/
  | asleep
  /-- woken in there, has not got the mutex yet -/
  | woken
  /-- has taken a block and opens it without the mutex (cpp:707-710) -/
  | opening
  /-- could not open it and goes round the loop (cpp:676-720) -/
  | again
  /-- has put `k` blocks back, released the mutex, and has still to notify `k` times
  (cpp:422-433) -/
  | notifying (k : Nat)
  /-- in the barrier of a version mismatch (SenderThread.cpp:882-884) -/
  | barrier
  /-- has left (`deRegisterThread`, SenderThread.cpp:994) -/
  | ended
deriving DecidableEq, Repr

/-- What the discovery thread is doing. -/
inductive DirPh where
  /-- adding files -/
  | adding
  /-- in `waitForPreviousTransfer`, about to count the running threads (cpp:725, 746) -/
  | count
  /-- has counted `a` running threads -/
  | check (a : Nat)
  /-- has returned from there: the generator is called (Sender.cpp:282) -/
  | generate
  /-- no more files -/
  | closing
  /-- `buildQueueSynchronously` has returned -/
  | done
deriving DecidableEq, Repr

/-- A sender: `n` its threads, `gen`: the request has a `fileInfoGenerator`, `two`: option
`two_phases` (threads are started when discovery has returned, Sender.cpp:353-356). -/
structure WCfg where
  n : Nat
  gen : Bool := false
  two : Bool := false
deriving DecidableEq, Repr

/-- The queue and its users. -/
structure QW where
  /-- `sourceQueue_.size()` -/
  queue : Nat := 0
  /-- `initFinished_` -/
  init : Bool := false
  /-- `numWaiters_` -/
  waiters : Int := 0
  th : Nat → QPh := fun _ => .fresh
  dir : DirPh := .adding

/-- Steps. -/
inductive QWEvent where
  | start (t : Nat)
  /-- `getNextSource` is called, or goes round its loop -/
  | call (t : Nat)
  /-- a spurious wake-up -/
  | spurious (t : Nat)
  /-- a woken thread has got the mutex -/
  | resume (t : Nat)
  | opened (t : Nat) (ok : Bool)
  /-- `returnToQueue` of `k` blocks, up to the release of the mutex -/
  | giveBack (t k : Nat)
  /-- one round of `smartNotify`; `w`: whom `notify_one` wakes -/
  | notify (t : Nat) (w : Option Nat)
  | enterBarrier (t : Nat)
  | leaveBarrier
  | exit (t : Nat)
  /-- a file with `k` blocks is added (`createIntoQueue`); `ws`: whom `smartNotify` wakes -/
  | add (k : Nat) (ws : List (Option Nat))
  /-- thread `t` has received the list of what the receiver has; the queue is built again with
  `k` blocks (`setPreviouslyReceivedChunks`) -/
  | rebuild (t k : Nat) (ws : List (Option Nat))
  /-- all files of the list are added, the generator comes next (cpp:213-217) -/
  | next
  /-- the running threads are counted -/
  | countThreads
  /-- `waitForPreviousTransfer` holds the mutex and looks -/
  | look
  /-- the generator returns: files, or nothing -/
  | generated (more : Bool)
  /-- discovery fails or, without a generator, has everything -/
  | close
  /-- end of `buildQueueSynchronously` with `d` files to delete (cpp:222-230) -/
  | finish (d : Nat) (ws : List (Option Nat))
deriving DecidableEq, Repr

/-- `conditionNotEmpty_.notify_all()`. -/
def QW.wakeAll (s : QW) : QW := { s with th := fun u => if s.th u = .asleep then .woken else s.th u }

/-- `conditionNotEmpty_.notify_one()` among `n` threads wakes `w`, which sleeps; nobody is woken
only if nobody sleeps. -/
def QW.wakeOne (s : QW) (n : Nat) : Option Nat → Option QW
  | some w => if w < n ∧ s.th w = .asleep then some { s with th := upd s.th w .woken } else none
  | none => if ∀ u < n, s.th u ≠ .asleep then some s else none

/-- `k` times `notify_one`. -/
def QW.wakeMany (s : QW) (n : Nat) : Nat → List (Option Nat) → Option QW
  | 0, [] => some s
  | k + 1, w :: ws =>
    match s.wakeOne n w with
    | some s' => s'.wakeMany n k ws
    | none => none
  | _, _ => none

/-- `smartNotify` (DirectorySourceQueue.cpp:412-420); `numClientThreads_` is the number of ports
(Sender.cpp:305). -/
def QW.smartNotify (s : QW) (n k : Nat) (ws : List (Option Nat)) : Option QW :=
  if k ≥ n then some s.wakeAll else s.wakeMany n k ws

/-- The inside of `getNextSource` while the mutex is held, from the test of the loop at
DirectorySourceQueue.cpp:687 on; `numWaiters_` counts the thread already. -/
def QW.look (s : QW) (t : Nat) : QW :=
  if s.queue = 0 ∧ s.init = false then { s with th := upd s.th t .asleep }
  else if s.queue = 0 then { s with waiters := s.waiters - 1, th := upd s.th t .working }
  else
    let s := { s with waiters := s.waiters - 1, queue := s.queue - 1, th := upd s.th t .opening }
    if s.queue = 0 ∧ s.init then s.wakeAll else s

/-- `ThreadsController::numRunningThreads` (ThreadsController.cpp:270-279). -/
def QW.running (s : QW) (n : Nat) : Nat := (List.range n).countP fun u => s.th u ≠ .ended

/-- One step; `none`: not possible.

`start`: Sender.cpp:353-359.  `call`: cpp:679-687.  `rebuild`: cpp:149-173; no thread is inside the
queue then, because a thread enters it only after it was given the list or was told that another
one has it (SenderThread.cpp:238-244, 506-541).  `exit`, `enterBarrier`, `leaveBarrier`:
SenderThread.cpp:876-884, 944-1000, the barrier as in C31.  `look`: cpp:729-749; it waits with a
time limit, so it may look again at any time; if meanwhile the transfer has ended, the loop is left
and no more files are asked for (cpp:741-744, Sender.cpp:276-281). -/
def qwStep (c : WCfg) (s : QW) : QWEvent → Option QW
  | .start t =>
    if t < c.n ∧ s.th t = .fresh ∧ (c.two = true → s.dir = .done) then some { s with th := upd s.th t .working } else none
  | .call t =>
    if t < c.n ∧ (s.th t = .working ∨ s.th t = .again) then some ({ s with waiters := s.waiters + 1 }.look t) else none
  | .spurious t => if t < c.n ∧ s.th t = .asleep then some { s with th := upd s.th t .woken } else none
  | .resume t => if t < c.n ∧ s.th t = .woken then some (s.look t) else none
  | .opened t ok =>
    if t < c.n ∧ s.th t = .opening then some { s with th := upd s.th t (if ok then .working else .again) } else none
  | .giveBack t k =>
    if t < c.n ∧ s.th t = .working then some { s with queue := s.queue + k, th := upd s.th t (.notifying k) } else none
  | .notify t w =>
    match s.th t with
    | .notifying 0 => if t < c.n ∧ w = none then some { s with th := upd s.th t .working } else none
    | .notifying (k + 1) =>
      if t < c.n then
        if k + 1 ≥ c.n then some { s.wakeAll with th := upd s.wakeAll.th t .working }
        else match s.wakeOne c.n w with
          | some s' => some { s' with th := upd s'.th t (.notifying k) }
          | none => none
      else none
    | _ => none
  | .enterBarrier t => if t < c.n ∧ s.th t = .working then some { s with th := upd s.th t .barrier } else none
  | .leaveBarrier =>
    if (∀ u < c.n, s.th u = .barrier ∨ s.th u = .ended) then
      some { s with th := fun u => if s.th u = .barrier then .working else s.th u }
    else none
  | .exit t => if t < c.n ∧ s.th t = .working then some { s with th := upd s.th t .ended } else none
  | .add k ws => if s.dir = .adding then { s with queue := s.queue + k }.smartNotify c.n k ws else none
  | .rebuild t k ws =>
    if t < c.n ∧ s.th t = .working ∧ (∀ u < c.n, s.th u = .fresh ∨ s.th u = .working ∨ s.th u = .barrier ∨ s.th u = .ended) then
      { s with queue := k }.smartNotify c.n k ws
    else none
  | .next => if s.dir = .adding ∧ c.gen then some { s with dir := .count } else none
  | .countThreads => if s.dir = .count then some { s with dir := .check (s.running c.n) } else none
  | .look =>
    match s.dir with
    | .check a =>
      if s.queue ≠ 0 ∨ s.waiters < a then
        some { s with dir := if s.running c.n = 0 then .closing else .count }
      else some { s with dir := .generate }
    | _ => none
  | .generated more => if s.dir = .generate then some { s with dir := if more then .adding else .closing } else none
  | .close => if s.dir = .adding then some { s with dir := .closing } else none
  | .finish d ws =>
    if s.dir = .closing then
      match { s with queue := s.queue + d, init := true, dir := .done }.smartNotify c.n d ws with
      | some s' => if s'.queue = 0 then some s'.wakeAll else some s'
      | none => none
    else none

/-- Executions. -/
def qwRun (c : WCfg) (s : QW) : List QWEvent → Option QW
  | [] => some s
  | e :: es => match qwStep c s e with
    | some s' => qwRun c s' es
    | none => none

end Wdt
