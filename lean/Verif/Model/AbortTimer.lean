/-
Model of `-abort_after_seconds` of the program wdt (/repo/wdtCmdLine.cpp:101-141, 347, 377-379): a
thread that waits for a condition with a time limit and then has the transfer aborted, and the main
thread that cancels this when the transfer has ended.  The static future of that thread makes the
process wait for the thread when it ends (wdtCmdLine.cpp:126).
-/
namespace Wdt

/-- Where the waiting thread is (wdtCmdLine.cpp:112-124).  `wait_for` with a predicate is the loop
of the standard: test; wait until the deadline or a wake-up, for no reason as well; after a timeout
test a last time. -/
inductive AtTimer where
  /-- not started (no limit, or setupAbortChecker not called yet) -/
  | none
  /-- before it has the lock (:114) -/
  | wantLock
  /-- has the lock, computes the deadline (:116) -/
  | enter
  /-- has the lock, tests `isAbortCancelled` (:117) -/
  | test (deadline : Nat)
  /-- waits, without the lock -/
  | waiting (deadline : Nat)
  /-- awake, needs the lock again; `timeout`: because the deadline has passed -/
  | woken (deadline : Nat) (timeout : Bool)
  /-- has the lock after a timeout, tests a last time -/
  | lastTest
  /-- has the lock, sets the trigger (:121-122) -/
  | store
  /-- has the lock and is about to give it back -/
  | leave
  | done
deriving DecidableEq, Repr

/-- Where the main thread is. -/
inductive AtMain where
  /-- before setupAbortChecker (:104-108) -/
  | before
  /-- the transfer runs (:347-363, 377) -/
  | transfer
  /-- before cancelAbort has the lock (:136) -/
  | wantLock
  /-- has the lock; about to set the flag (:137) -/
  | set
  /-- about to notify (:138) -/
  | notify
  /-- about to give the lock back (:139) -/
  | leave
  /-- returned from main; the destructor of the future waits for the thread (:126) -/
  | join
  | exited
deriving DecidableEq, Repr

/-- The process.  `seconds` is the flag; a tick of the clock is one second (any unit would do);
`started` when setupAbortChecker was called. -/
structure AtSys where
  seconds : Int
  now : Nat := 0
  started : Nat := 0
  timer : AtTimer := .none
  main : AtMain := .before
  lockMain : Bool := false
  lockTimer : Bool := false
  cancelled : Bool := false
  trigger : Bool := false
deriving DecidableEq, Repr

/-- Time passes; a thread makes a step; the waiting thread wakes up for no reason or because of
the deadline. -/
inductive AtEvent where
  | tick
  | main
  | timer
  | spurious
  | timeout
deriving DecidableEq, Repr

/-- A step of the waiting thread (wdtCmdLine.cpp:112-124); `none`: it cannot make one now. -/
def AtSys.timerStep (s : AtSys) : Option AtSys :=
  match s.timer with
  | .none | .waiting _ | .done => none
  | .wantLock => if s.lockMain then none else some { s with timer := .enter, lockTimer := true }
  | .enter => some { s with timer := .test (s.now + s.seconds.toNat) }
  | .test d =>
    if s.cancelled then some { s with timer := .leave }
    else some { s with timer := .waiting d, lockTimer := false }
  | .woken d t =>
    if s.lockMain then none else some { s with timer := if t then .lastTest else .test d, lockTimer := true }
  | .lastTest => some { s with timer := if s.cancelled then .leave else .store }
  | .store => some { s with timer := .leave, trigger := true }
  | .leave => some { s with timer := .done, lockTimer := false }

/-- A step of the main thread (wdtCmdLine.cpp:104-128, 134-141, 377-387).  The end of the transfer
is its step from `transfer`. -/
def AtSys.mainStep (s : AtSys) : Option AtSys :=
  match s.main with
  | .before => some { s with main := .transfer, started := s.now, timer := if s.seconds ≤ 0 then .none else .wantLock }
  | .transfer => some { s with main := .wantLock }
  | .wantLock => if s.lockTimer then none else some { s with main := .set, lockMain := true }
  | .set => some { s with main := .notify, cancelled := true }
  | .notify =>
    some { s with
      main := .leave
      timer := match s.timer with
        | .waiting d => .woken d false
        | t => t }
  | .leave => some { s with main := .join, lockMain := false }
  | .join => if s.timer = .done ∨ s.timer = .none then some { s with main := .exited } else none
  | .exited => none

/-- What happens. -/
def AtSys.event (s : AtSys) : AtEvent → Option AtSys
  | .tick => some { s with now := s.now + 1 }
  | .main => s.mainStep
  | .timer => s.timerStep
  | .spurious =>
    match s.timer with
    | .waiting d => some { s with timer := .woken d false }
    | _ => none
  | .timeout =>
    match s.timer with
    | .waiting d => if d ≤ s.now then some { s with timer := .woken d true } else none
    | _ => none

/-- A history; `none` if something in it cannot happen. -/
def atRun : AtSys → List AtEvent → Option AtSys
  | s, [] => some s
  | s, e :: es => (s.event e).bind fun s' => atRun s' es

end Wdt
