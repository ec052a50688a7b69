import Verif.Model.SourceQueue
/-
Model of the thread coordination primitives (/repo/util/ThreadsController.{h,cpp}) and of
the end-of-transfer protocol of receiver threads (/repo/ReceiverThread.cpp:833-1008).

Threads are numbered; what a thread is doing is a function of its number.  A primitive's
methods hold its mutex for their whole body (waiting on a condition variable releases it),
so each method is one step and a wait is a step that leaves the thread asleep.
-/
namespace Wdt

/-- Update of one thread's entry. -/
def upd {α : Type} (f : Nat → α) (t : Nat) (a : α) : Nat → α := fun u => if u = t then a else f u

/-! ### Funnel -/

/-- `enum FunnelStatus` (ThreadsController.h:225-231) -/
inductive FunStatus where
  | start | progress | stop
deriving DecidableEq, Repr

/-- Where a thread is with respect to a funnel.  `idle`: not at the funnel; `inside`: was told
`FUNNEL_START`; `saw`: was told `FUNNEL_PROGRESS`, has not waited yet; `asleep`: in `wait`;
`retry`: returned from `wait`, about to ask again; `done`: was told `FUNNEL_END` or
succeeded. -/
inductive FLoc where
  | idle | inside | saw | asleep | retry | done
deriving DecidableEq, Repr

/-- A funnel and the threads using it. -/
structure FunSys where
  status : FunStatus := .start
  th : Nat → FLoc := fun _ => .idle

/-- Steps. -/
inductive FunEvent where
  /-- `getStatus` -/
  | ask (t : Nat)
  /-- `wait` -/
  | wait (t : Nat)
  /-- return from the condition variable without notification: spurious, or the time is up -/
  | wake (t : Nat)
  | success (t : Nat)
  /-- `notifyFail`; `w` is the thread that `notify_one` wakes -/
  | fail (t : Nat) (w : Option Nat)
  /-- a thread that saw `FUNNEL_PROGRESS` goes away instead of waiting
  (ReceiverThread.cpp:762-766) -/
  | giveUp (t : Nat)
deriving DecidableEq, Repr

/-- One step of a funnel: `getStatus`, `wait`, `notifySuccess`, `notifyFail`
(ThreadsController.cpp:70-105), used as in SenderThread.cpp:887-940 and
ReceiverThread.cpp:742-830.  `none`: not possible in this state. -/
def funStep (s : FunSys) : FunEvent → Option FunSys
  | .ask t =>
    if s.th t = .idle ∨ s.th t = .retry then
      match s.status with
      | .start => some ⟨.progress, upd s.th t .inside⟩
      | .progress => some ⟨.progress, upd s.th t .saw⟩
      | .stop => some ⟨.stop, upd s.th t .done⟩
    else none
  | .wait t =>
    if s.th t = .saw then
      if s.status ≠ .progress then some ⟨s.status, upd s.th t .retry⟩
      else some ⟨s.status, upd s.th t .asleep⟩
    else none
  | .wake t => if s.th t = .asleep then some ⟨s.status, upd s.th t .retry⟩ else none
  | .success t =>
    if s.th t = .inside then
      some ⟨.stop, fun u => if u = t then .done else if s.th u = .asleep then .retry else s.th u⟩
    else none
  | .fail t w =>
    if s.th t = .inside then
      match w with
      | some x => if s.th x = .asleep then some ⟨.start, upd (upd s.th t .idle) x .retry⟩ else none
      | none => some ⟨.start, upd s.th t .idle⟩
    else none
  | .giveUp t => if s.th t = .saw then some ⟨s.status, upd s.th t .idle⟩ else none

/-- `notify_one` wakes a thread if one is asleep. -/
def FunEvent.notifies (s : FunSys) : FunEvent → Prop
  | .fail _ none => ∀ u, s.th u ≠ .asleep
  | _ => True

/-- Executions of a funnel, from its construction (ThreadsController.h:245-247). -/
inductive FunRun : List FunEvent → FunSys → Prop where
  | nil : FunRun [] {}
  | snoc {s1 s2 : FunSys} {es : List FunEvent} {e : FunEvent} :
      FunRun es s1 → e.notifies s1 → funStep s1 e = some s2 → FunRun (es ++ [e]) s2

/-! ### Barrier -/

/-- Where a thread is with respect to a barrier.  `gone`: its `start` returned without
`deRegisterThread` (SenderThread.cpp:957-961, ReceiverThread.cpp:984-988). -/
inductive BLoc where
  | running | waiting | passed | left | gone
deriving DecidableEq, Repr

/-- A barrier (ThreadsController.h:184-200) and its threads. -/
structure BarSys where
  hits : Int := 0
  numThreads : Int
  complete : Bool := false
  th : Nat → BLoc := fun _ => .running

/-- Steps. -/
inductive BarEvent where
  /-- `execute`, up to its first wait -/
  | hit (t : Nat)
  /-- the waiting thread is scheduled again -/
  | wake (t : Nat)
  /-- `deRegister`, called by `deRegisterThread` -/
  | leave (t : Nat)
  /-- `start` returns early: no `deRegisterThread` -/
  | vanish (t : Nat)
deriving DecidableEq, Repr

/-- `checkForFinish` (ThreadsController.cpp:107-115): a failed check or the new value of
`isComplete_`. -/
def barCheck (hits numThreads : Int) (complete : Bool) : Except Fault Bool :=
  if numThreads < hits then .error .check
  else if hits = numThreads then .ok true else .ok complete

/-- One step of a barrier with `n` threads (ThreadsController.cpp:117-136). -/
def barStep (n : Nat) (s : BarSys) : BarEvent → Res BarSys
  | .hit t =>
    if t < n ∧ s.th t = .running then
      if s.complete then .fault .check
      else match barCheck (s.hits + 1) s.numThreads s.complete with
        | .error f => .fault f
        | .ok true => .ok ⟨s.hits + 1, s.numThreads, true, upd s.th t .passed⟩
        | .ok false => .ok ⟨s.hits + 1, s.numThreads, false, upd s.th t .waiting⟩
    else .blocked
  | .wake t =>
    if t < n ∧ s.th t = .waiting then
      if s.complete then .ok ⟨s.hits, s.numThreads, s.complete, upd s.th t .passed⟩ else .ok s
    else .blocked
  | .leave t =>
    if t < n ∧ (s.th t = .running ∨ s.th t = .passed) then
      if s.complete then .ok ⟨s.hits, s.numThreads, s.complete, upd s.th t .left⟩
      else match barCheck s.hits (s.numThreads - 1) s.complete with
        | .error f => .fault f
        | .ok c => .ok ⟨s.hits, s.numThreads - 1, c, upd s.th t .left⟩
    else .blocked
  | .vanish t =>
    if t < n ∧ s.th t = .running then .ok ⟨s.hits, s.numThreads, s.complete, upd s.th t .gone⟩
    else .blocked

/-- A history of steps. -/
def barRun (n : Nat) : BarSys → List BarEvent → Res BarSys
  | s, [] => .ok s
  | s, e :: es =>
    match barStep n s e with
    | .ok s' => barRun n s' es
    | .fault f => .fault f
    | .blocked => .blocked

/-- `Barrier(numThreads)` (ThreadsController.h:162-165) with the controller's number of
threads (ThreadsController.cpp:248-254). -/
def BarSys.init (n : Nat) : BarSys := { numThreads := n }

/-! ### Run-once hooks -/

/-- Where a thread is with respect to a hook: not there yet, holding the mutex (running the
hook or not), past it, or ended without calling it. -/
inductive ELoc where
  | before | holding | inHook | after | gone
deriving DecidableEq, Repr

/-- An `ExecuteOnceFunc` (ThreadsController.h:38-79) and its threads; `started` and `finished`
count the executions of the function passed in. -/
structure OnceSys where
  hits : Int := 0
  lock : Option Nat := none
  started : Nat := 0
  finished : Nat := 0
  th : Nat → ELoc := fun _ => .before

/-- Steps. -/
inductive OnceEvent where
  /-- `execute` takes the mutex and counts -/
  | enter (t : Nat)
  /-- `execute` returns -/
  | leave (t : Nat)
  /-- the thread ends without calling `execute` -/
  | vanish (t : Nat)
deriving DecidableEq, Repr

/-- `numExpected` (ThreadsController.h:58). -/
def onceExpected (n : Nat) (first : Bool) : Int := if first then 1 else n

/-- One step with `n` threads; `first` is `execFirst_` (ThreadsController.h:53-63). -/
def onceStep (n : Nat) (first : Bool) (s : OnceSys) : OnceEvent → Res OnceSys
  | .enter t =>
    if t < n ∧ s.th t = .before ∧ s.lock = none then
      if s.hits + 1 ≤ n then
        if s.hits + 1 = onceExpected n first then
          .ok ⟨s.hits + 1, some t, s.started + 1, s.finished, upd s.th t .inHook⟩
        else .ok ⟨s.hits + 1, some t, s.started, s.finished, upd s.th t .holding⟩
      else .fault .check
    else .blocked
  | .leave t =>
    if t < n ∧ s.th t = .inHook then .ok ⟨s.hits, none, s.started, s.finished + 1, upd s.th t .after⟩
    else if t < n ∧ s.th t = .holding then .ok ⟨s.hits, none, s.started, s.finished, upd s.th t .after⟩
    else .blocked
  | .vanish t =>
    if t < n ∧ s.th t = .before then .ok ⟨s.hits, s.lock, s.started, s.finished, upd s.th t .gone⟩
    else .blocked

/-- A history of steps. -/
def onceRun (n : Nat) (first : Bool) : OnceSys → List OnceEvent → Res OnceSys
  | s, [] => .ok s
  | s, e :: es =>
    match onceStep n first s e with
    | .ok s' => onceRun n first s' es
    | .fault f => .fault f
    | .blocked => .blocked

/-! ### End of a transfer at the receiver -/

/-- `enum ThreadStatus` (ThreadsController.h:33) as far as receiver threads use it. -/
inductive Mark where
  | running | waiting | finished
deriving DecidableEq, Repr

/-- What a receiver thread is doing (`enum ReceiverState`, ReceiverThread.h:20-40, states
that do not matter here merged).  `reading`: accepting the first connection, reading or
processing commands; `toWait`: got DONE, not yet marked as waiting; `waiting`; `found` and
`nothing`: holds the condition's mutex, found new checkpoints or none; `decided`: holds
the mutex and found no running thread; `sendGlobal`; `sendDone`; `accepting`; `failing`:
in FINISH_WITH_ERROR; `ended`. -/
inductive RPhase where
  | reading | toWait | waiting | found | nothing | decided | sendGlobal | sendDone | accepting
  | failing | ended
deriving DecidableEq, Repr

/-- A receiver thread: `checkpointIndex_`, `pendingCheckpointIndex_`, size of
`newCheckpoints_` (ReceiverThread.h:301-315). -/
structure RThr where
  phase : RPhase := .reading
  mark : Mark := .running
  cpIdx : Nat := 0
  pending : Nat := 0
  newCps : Nat := 0
deriving DecidableEq, Repr

/-- The receiver's threads; `cps`: thread numbers of the checkpoints in
`Receiver::checkpoints_`, in order; `lock`: holder of the condition's mutex. -/
structure RFin where
  th : Nat → RThr := fun _ => {}
  cps : List Nat := []
  lock : Option Nat := none

/-- Steps of thread `t`. -/
inductive REvent where
  /-- a valid FILE command (ReceiverThread.cpp:474-475) -/
  | file (t : Nat)
  /-- a valid DONE command (ReceiverThread.cpp:711-717) -/
  | doneCmd (t : Nat)
  /-- `markState(WAITING)` (ReceiverThread.cpp:950) -/
  | markWaiting (t : Nat)
  /-- take the mutex and ask for new checkpoints (ReceiverThread.cpp:954-955, 929-931; also 965
  after having slept) -/
  | look (t : Nat)
  /-- new checkpoints: mark RUNNING, release (932-934, 957-958) -/
  | resume (t : Nat)
  /-- `hasThreads(RUNNING)` (936) -/
  | query (t : Nat)
  /-- mark FINISHED, release (938-939, 957-958) -/
  | finish (t : Nat)
  /-- write of the global checkpoints (833-856) -/
  | globalWritten (t : Nat) (ok : Bool)
  /-- write of WAIT failed (973-977) -/
  | waitFailed (t : Nat)
  /-- exchange of DONE (878-906) -/
  | doneSent (t : Nat) (ok : Bool)
  /-- the connection broke while reading, or another error that leads to a reconnect -/
  | connLost (t : Nat)
  /-- an error that leads to FINISH_WITH_ERROR (e.g. 713, 695, 130) -/
  | error (t : Nat)
  /-- `acceptNextConnection` (214-231) -/
  | accepted (t : Nat) (ok : Bool)
  /-- `finishWithError` (920-926) -/
  | failed (t : Nat)
  /-- END without a checkpoint: non-retryable socket error in ACCEPT_WITH_TIMEOUT (197-203), or
  the loop in `start` ends because of an abort (991-996); `deRegisterThread` -/
  | silentEnd (t : Nat)
deriving DecidableEq, Repr

/-- One step of a receiver with `n` threads. -/
def rStep (n : Nat) (s : RFin) : REvent → Option RFin
  | .file t =>
    if t < n ∧ (s.th t).phase = .reading then
      some { s with th := upd s.th t { s.th t with cpIdx := (s.th t).pending } }
    else none
  | .doneCmd t =>
    if t < n ∧ (s.th t).phase = .reading then
      some { s with th := upd s.th t { s.th t with
        cpIdx := (s.th t).pending, phase := .toWait } }
    else none
  | .markWaiting t =>
    if t < n ∧ (s.th t).phase = .toWait then
      some { s with th := upd s.th t { s.th t with mark := .waiting, phase := .waiting } }
    else none
  | .look t =>
    if t < n ∧ (s.th t).phase = .waiting ∧ s.lock = none then
      if (s.th t).cpIdx < s.cps.length then
        some { s with
          th := upd s.th t { s.th t with newCps := s.cps.length - (s.th t).cpIdx, phase := .found }
          lock := some t }
      else some { s with th := upd s.th t { s.th t with phase := .nothing }, lock := some t }
    else none
  | .resume t =>
    if t < n ∧ (s.th t).phase = .found then
      some { s with th := upd s.th t { s.th t with mark := .running, phase := .sendGlobal }, lock := none }
    else none
  | .query t =>
    if t < n ∧ (s.th t).phase = .nothing then
      if (List.range n).any fun u => u != t && (s.th u).mark == .running then
        some { s with th := upd s.th t { s.th t with phase := .waiting }, lock := none }
      else some { s with th := upd s.th t { s.th t with phase := .decided } }
    else none
  | .finish t =>
    if t < n ∧ (s.th t).phase = .decided then
      some { s with th := upd s.th t { s.th t with mark := .finished, phase := .sendDone }, lock := none }
    else none
  | .globalWritten t ok =>
    if t < n ∧ (s.th t).phase = .sendGlobal then
      if ok then some { s with th := upd s.th t { s.th t with
        pending := (s.th t).cpIdx + (s.th t).newCps, phase := .reading } }
      else some { s with th := upd s.th t { s.th t with phase := .accepting } }
    else none
  | .waitFailed t =>
    if t < n ∧ (s.th t).phase = .waiting then
      some { s with th := upd s.th t { s.th t with mark := .running, phase := .accepting } }
    else none
  | .doneSent t ok =>
    if t < n ∧ (s.th t).phase = .sendDone then
      if ok then some { s with th := upd s.th t { s.th t with mark := .finished, phase := .ended } }
      else some { s with th := upd s.th t { s.th t with phase := .accepting } }
    else none
  | .connLost t =>
    if t < n ∧ (s.th t).phase = .reading then
      some { s with th := upd s.th t { s.th t with phase := .accepting } }
    else none
  | .error t =>
    if t < n ∧ (s.th t).phase = .reading then
      some { s with th := upd s.th t { s.th t with phase := .failing } }
    else none
  | .accepted t ok =>
    if t < n ∧ (s.th t).phase = .accepting then
      if ok then some { s with th := upd s.th t { s.th t with
        pending := (s.th t).cpIdx, phase := .reading } }
      else some { s with th := upd s.th t { s.th t with phase := .failing } }
    else none
  | .failed t =>
    if t < n ∧ (s.th t).phase = .failing ∧ s.lock = none then
      some { s with th := upd s.th t { s.th t with mark := .finished, phase := .ended }, cps := s.cps ++ [t] }
    else none
  | .silentEnd t =>
    if t < n ∧ ((s.th t).phase = .accepting ∨ (s.th t).phase = .reading ∨ (s.th t).phase = .toWait ∨
        (s.th t).phase = .sendGlobal ∨ (s.th t).phase = .sendDone ∨ (s.th t).phase = .failing) then
      some { s with th := upd s.th t { s.th t with mark := .finished, phase := .ended } }
    else none

/-- A history of steps. -/
def rRun (n : Nat) : RFin → List REvent → Option RFin
  | s, [] => some s
  | s, e :: es =>
    match rStep n s e with
    | none => none
    | some s' => rRun n s' es

end Wdt
