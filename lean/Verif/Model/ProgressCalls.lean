import Verif.Model.SourceQueue
import Verif.Model.Progress
import Verif.Model.Lifecycle
/-
Model of the calls that a transfer makes of a progress reporter, `start`, `progress` and `end`
(/repo/Reporting.h:479-513), and of the numbers for the current throughput: Sender.cpp:165-255,
284-369, 414-458; Receiver.cpp:287-330, 349-357, 375-433, 447-487; WdtBase.cpp:160-166.

The thread of the application, which starts and finishes the transfer, and the thread that reports
progress run interleaved; so do the threads that transfer data, of which only is modelled that
there are any and that they end.  One thread of the application calls `transferAsync` and `finish`
(for calls of `finish` during `transferAsync` see Lifecycle).
-/
namespace Wdt

/-- Sender or receiver, whether the application has set a reporter (`setProgressReporter`,
WdtBase.cpp:66-69), `progress_report_interval_millis` and `throughput_update_interval_millis`
(WdtOptions.h:186, 253), both `int`. -/
structure PgCfg where
  sender : Bool
  given : Bool
  p : Int
  u : Int
deriving DecidableEq, Repr

/-- There is a reporter: a sender makes one if there is none (Sender.cpp:328-331), a receiver if it
is to report (Receiver.cpp:351-355). -/
def PgCfg.present (c : PgCfg) : Bool := c.sender || c.given || decide (0 < c.p)

/-- `start` of the reporter is called (Sender.cpp:332-333, 363-364; Receiver.cpp:479-482). -/
def PgCfg.starts (c : PgCfg) : Bool := if c.sender then decide (0 < c.p) else c.present

/-- The thread that reports is made (Sender.cpp:363-367; Receiver.cpp:479-485). -/
def PgCfg.makes (c : PgCfg) : Bool := if c.sender then decide (0 < c.p) else true

/-- `end` of the reporter is called (Sender.cpp:180-181, 239-241; Receiver.cpp:319-324), for a
receiver with what it knows of the sender's total. -/
def PgCfg.ends (c : PgCfg) (total : Int) : Bool :=
  if c.sender then decide (0 < c.p) else c.present && decide (0 ≤ total)

/-- What a call of `progress` is given, as far as modelled: bytes transferred, the time of the report,
and the current throughput, a quotient of a number of bytes and a time (`none`: 0, no time has been
measured yet). -/
structure PgRep where
  eff : Int
  time : Int
  cur : Option (Int × Int)
deriving DecidableEq, Repr

/-- What can be observed, in order. -/
inductive PgObs where
  /-- data is transferred -/
  | work
  | startCall
  | startRet
  | progCall (r : PgRep)
  | progRet
  | endCall
  | endRet
  /-- all threads of the transfer have been joined (Sender.cpp:189, Receiver.cpp:309) -/
  | joined
deriving DecidableEq, Repr

/-- Where the thread of the application is. -/
inductive PgApp where
  | idle
  /-- the threads have been started (Sender.cpp:360-362; Receiver.cpp:461-466) -/
  | begun
  | inStart
  /-- before the thread that reports is made -/
  | make
  /-- `transferAsync` has returned -/
  | running
  /-- `finish` waits for the threads (Sender.cpp:182-187; Receiver.cpp:305-307) -/
  | joinWorkers
  /-- `finish` waits for the thread that reports (Sender.cpp:190-192; Receiver.cpp:311-314) -/
  | joinTracker
  /-- `finish` makes its report -/
  | haveReport
  | inEnd
  /-- `finish` has returned -/
  | over
deriving DecidableEq, Repr

/-- Where the thread that reports is. -/
inductive PgTr where
  | none
  | entry
  /-- before it has the lock (Sender.cpp:432; Receiver.cpp:398) -/
  | wantLock
  /-- waits until a time (Sender.cpp:433; Receiver.cpp:399) -/
  | waiting (deadline : Nat)
  /-- awake, gets the lock and tests (Sender.cpp:434-436; Receiver.cpp:400-402) -/
  | woken
  /-- reads the statistics (Sender.cpp:439; Receiver.cpp:404-414) -/
  | reading
  /-- before the throughput is computed (Sender.cpp:440-451; Receiver.cpp:415-426) -/
  | got (eff : Int)
  /-- in `progress` (Sender.cpp:453; Receiver.cpp:428) -/
  | inProgress
  | done
deriving DecidableEq, Repr

/-- Both threads.  `alive`: there are threads that transfer; `now`: the clock by which is waited;
`wall`: the clock that is read, `high_resolution_clock` (Reporting.h:33), which can be set; both in
nanoseconds.  `m`, `last`, `lastTime`, `k`, `cur`: throughputUpdateInterval, lastEffectiveBytes,
lastUpdateTime, intervalsSinceLastUpdate, currentThroughput (Sender.cpp:419-425;
Receiver.cpp:385-391); `t0`: the first value of `lastTime`, kept for stating properties. -/
structure PgSt where
  status : TStatus := .notStarted
  alive : Bool := false
  app : PgApp := .idle
  tr : PgTr := .none
  now : Nat := 0
  wall : Int := 0
  m : Int := 0
  last : Int := 0
  lastTime : Int := 0
  t0 : Int := 0
  k : Int := 0
  cur : Option (Int × Int) := .none
  obs : List PgObs := []
deriving DecidableEq, Repr

/-- What happens.  `tick`: time passes; `setClock`: the clock is set; `work`, `workersEnd`: the
threads that transfer; `app..`: steps of the application's thread; `tr..`: steps of the thread that
reports, with what it reads. -/
inductive PgEv where
  | tick (d : Nat)
  | setClock (t : Int)
  | work
  | workersEnd
  | appStart
  | appCallStart
  | appStartRet
  | appMake
  | appFinish
  | appJoined
  | appTracker
  | appEnd (total : Int)
  | appEndRet
  | trEntry
  | trWait
  | trTimeout
  | trSpurious
  | trTest
  | trRead (eff : Int)
  | trReport
  | trRet
deriving DecidableEq, Repr

/-- Nanoseconds of a number of milliseconds. -/
def msNs (p : Int) : Nat := p.toNat * 1000000

/-- One step of the thread that reports: the throughput, and the call of `progress`
(Sender.cpp:440-453; Receiver.cpp:415-428).  The counter is an `int`. -/
def pgReport (s : PgSt) (eff : Int) : Res PgSt :=
  if fitsInt (s.k + 1) then
    if s.m ≤ s.k + 1 then
      .ok { s with
        k := 0, last := eff, lastTime := s.wall, cur := some (eff - s.last, s.wall - s.lastTime), tr := .inProgress
        obs := s.obs ++ [.progCall ⟨eff, s.wall, some (eff - s.last, s.wall - s.lastTime)⟩] }
    else
      .ok { s with k := s.k + 1, tr := .inProgress, obs := s.obs ++ [.progCall ⟨eff, s.wall, s.cur⟩] }
  else .fault .ub

/-- Where the code before the loop leaves the thread that reports (Sender.cpp:415-425;
Receiver.cpp:378-391): a sender insists on its options, a receiver returns. -/
def pgEntry (c : PgCfg) (s : PgSt) : Res PgSt :=
  if c.sender then
    if 0 < c.p ∧ 0 ≤ c.u then
      .ok { s with tr := .wantLock, m := c.u.tdiv c.p, last := 0, lastTime := s.wall, t0 := s.wall, k := 0, cur := .none }
    else .fault .check
  else if c.p ≤ 0 ∨ c.u < 0 then .ok { s with tr := .done }
  else .ok { s with tr := .wantLock, m := c.u.tdiv c.p, last := 0, lastTime := s.wall, t0 := s.wall, k := 0, cur := .none }

/-- One event.  `blocked`: it cannot happen now. -/
def pgStep (c : PgCfg) (s : PgSt) : PgEv → Res PgSt
  | .tick d => .ok { s with now := s.now + d, wall := s.wall + d }
  | .setClock t => .ok { s with wall := t }
  | .work => if s.alive then .ok { s with obs := s.obs ++ [.work] } else .blocked
  -- the last thread to end sets the status (Sender.cpp:24; Receiver.cpp:97)
  | .workersEnd => if s.alive then .ok { s with alive := false, status := .finished } else .blocked
  -- a second start: Sender.cpp:287-290; Receiver.cpp:448
  | .appStart =>
    if s.app = .idle then .ok { s with app := .begun, status := .ongoing, alive := true }
    else if s.app = .running ∨ s.app = .over then (if c.sender then .ok s else .fault .check)
    else .blocked
  | .appCallStart =>
    if s.app = .begun then
      if c.starts then .ok { s with app := .inStart, obs := s.obs ++ [.startCall] } else .ok { s with app := .make }
    else .blocked
  | .appStartRet => if s.app = .inStart then .ok { s with app := .make, obs := s.obs ++ [.startRet] } else .blocked
  | .appMake =>
    if s.app = .make then .ok { s with app := .running, tr := if c.makes then .entry else .none } else .blocked
  -- `finish` before the start or once more: Sender.cpp:169-178; Receiver.cpp:290-299
  | .appFinish =>
    if s.app = .running then .ok { s with app := .joinWorkers }
    else if s.app = .idle ∨ s.app = .over then .ok s
    else .blocked
  -- `setTransferStatus(THREADS_JOINED)`, which wakes the thread that reports if it waits (WdtBase.cpp:160-166)
  | .appJoined =>
    if s.app = .joinWorkers ∧ s.alive = false then
      .ok { s with
        app := .joinTracker, status := .joined, obs := s.obs ++ [.joined]
        tr := match s.tr with | .waiting _ => .woken | t => t }
    else .blocked
  | .appTracker =>
    if s.app = .joinTracker ∧ (s.tr = .done ∨ s.tr = .none) then .ok { s with app := .haveReport } else .blocked
  | .appEnd total =>
    if s.app = .haveReport then
      if c.ends total then .ok { s with app := .inEnd, obs := s.obs ++ [.endCall] } else .ok { s with app := .over }
    else .blocked
  | .appEndRet => if s.app = .inEnd then .ok { s with app := .over, obs := s.obs ++ [.endRet] } else .blocked
  | .trEntry => if s.tr = .entry then pgEntry c s else .blocked
  | .trWait => if s.tr = .wantLock then .ok { s with tr := .waiting (s.now + msNs c.p) } else .blocked
  | .trTimeout =>
    match s.tr with
    | .waiting d => if d ≤ s.now then .ok { s with tr := .woken } else .blocked
    | _ => .blocked
  | .trSpurious =>
    match s.tr with
    | .waiting _ => .ok { s with tr := .woken }
    | _ => .blocked
  | .trTest =>
    if s.tr = .woken then (if s.status = .joined then .ok { s with tr := .done } else .ok { s with tr := .reading })
    else .blocked
  | .trRead eff => if s.tr = .reading then .ok { s with tr := .got eff } else .blocked
  | .trReport =>
    match s.tr with
    | .got eff => pgReport s eff
    | _ => .blocked
  | .trRet => if s.tr = .inProgress then .ok { s with tr := .wantLock, obs := s.obs ++ [.progRet] } else .blocked

/-- A run. -/
def pgRun (c : PgCfg) (s : PgSt) : List PgEv → Res PgSt
  | [] => .ok s
  | e :: l =>
    match pgStep c s e with
    | .ok s' => pgRun c s' l
    | .fault f => .fault f
    | .blocked => .blocked

end Wdt
