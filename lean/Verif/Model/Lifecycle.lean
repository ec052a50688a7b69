import Verif.Model.Reporting
/-
The objects through which transfers are used: calls of `transferAsync`, `finish` and so on in any
order (Sender.cpp:129-155, 165-255, 284-370, Receiver.cpp:287-373, 447-487, WdtBase.h:143-149,
WdtBase.cpp:160-166).
-/
namespace Wdt

/-- `TransferStatus` (WdtBase.h:144-149). -/
inductive TStatus where
  | notStarted
  | ongoing
  | finished
  | joined
deriving DecidableEq, Repr

/-- What a call gives back. -/
inductive ApiOut where
  | nothing
  | code (c : ErrCode)
  | report (c : ErrCode)
deriving DecidableEq, Repr

/-! ### Sender -/

/-- A sender object: `made`: `start` has made the threads; `stats`: the statistics of the threads. -/
structure SObj where
  n : Nat
  status : TStatus := .notStarted
  made : Bool := false
  stats : List TStats := []
deriving DecidableEq, Repr

/-- What happens.  `start`: `transferAsync` is called and has passed its first part
(Sender.cpp:285-293); `started`: it has made queue, threads and directory thread and returns
(295-369), other threads may call in between; `work`: the threads change their statistics;
`allEnd`: the last thread ends; `finish`: called, with what it finds in the queue; `report`:
`getTransferReport` is called. -/
inductive SCall where
  | start
  | started
  | work (l : List TStats)
  | allEnd
  | finish (failedSources : List TStats) (failedDirs : List Bytes) (totalFileSize numDiscovered : Int)
  | report
deriving DecidableEq, Repr

/-- `Sender::getTransferReport` (Sender.cpp:129-151): the sum of the statistics of the threads; before
the start OK becomes ERROR. -/
def SObj.getReport (o : SObj) : ErrCode :=
  let c := (sumStats o.stats).errorCode
  if o.status = .notStarted ∧ c = eOK then eERROR else c

/-- One event; `none`: it cannot happen now, or the call has to wait.  `finish`: Sender.cpp:165-255;
moving the statistics out of the threads leaves their numbers where they were (Reporting.h:117,
WdtThread.cpp:15-17); while `start` is making the threads there is no directory thread to join
(Sender.cpp:186, 356): `std::thread::join` throws, and the threads are being made at the same
time. -/
def sCall (o : SObj) : SCall → Except Fault (Option (SObj × ApiOut))
  | .start =>
    if o.status ≠ .notStarted then .ok (some (o, .code eALREADY_EXISTS))
    else .ok (some ({ o with status := .ongoing }, .nothing))
  | .started =>
    if o.status = .ongoing ∧ o.made = false then
      .ok (some ({ o with made := true, stats := List.replicate o.n {} }, .code eOK))
    else .ok none
  | .work l => if o.status = .ongoing ∧ o.made = true ∧ l.length = o.n then .ok (some ({ o with stats := l }, .nothing)) else .ok none
  | .allEnd => if o.status = .ongoing ∧ o.made = true ∧ 0 < o.n then .ok (some ({ o with status := .finished }, .nothing)) else .ok none
  | .finish fs fd total num =>
    match o.status with
    | .notStarted => .ok (some (o, .report o.getReport))
    | .joined => .ok (some (o, .report o.getReport))
    | _ =>
      if o.made = false then .error .ub
      else if o.status = .ongoing ∧ 0 < o.n then .ok none
      else .ok (some ({ o with status := .joined },
        .report (senderReport { failedSources := fs, threads := o.stats, failedDirs := fd, totalFileSize := total, numDiscovered := num }).errorCode))
  | .report => .ok (some (o, .report o.getReport))

/-- Events one after the other, with what the calls give back. -/
def sCalls (o : SObj) : List SCall → Except Fault (Option (SObj × List ApiOut))
  | [] => .ok (some (o, []))
  | e :: es =>
    match sCall o e with
    | .error f => .error f
    | .ok none => .ok none
    | .ok (some (o', out)) =>
      match sCalls o' es with
      | .error f => .error f
      | .ok none => .ok none
      | .ok (some (o'', outs)) => .ok (some (o'', out :: outs))

/-! ### Receiver -/

/-- A receiver object: number of threads (0 until `init` has made them), `log`: there is a transfer
log manager; `ctl`: there is a threads controller; `resume`: `enable_download_resumption`. -/
structure RObj where
  resume : Bool := false
  n : Nat := 0
  log : Bool := false
  ctl : Bool := false
  status : TStatus := .notStarted
  stats : List TStats := []
deriving DecidableEq, Repr

/-- `init` that makes `k` threads, or refuses the request before anything is made (`none`,
Receiver.cpp:115-119); `daemon`: `runForever` is called. -/
inductive RCall where
  | init (k : Option Nat)
  | start
  | daemon
  | work (l : List TStats)
  | allEnd
  | finish
deriving DecidableEq, Repr

/-- `Receiver::getTransferReport` (Receiver.cpp:332-347). -/
def RObj.getReport (o : RObj) : ErrCode :=
  let c := (receiverReport o.stats).errorCode
  if o.status = .notStarted ∧ c = eOK then eERROR else c

/-- One event.  `init`: only before the start (a second `init` replaces everything).  `start`:
`transferAsync` (Receiver.cpp:349-357, 447-487).  `daemon`: `runForever` (359-373); with threads it
never returns and is in Sessions; without, `start` resets a controller that does not exist (474).
`finish`: 287-330; with resumption it uses the log manager (514-559). -/
def rCall (o : RObj) : RCall → Except Fault (Option (RObj × ApiOut))
  | .init none => if o.status = .notStarted then .ok (some (o, .nothing)) else .ok none
  | .init (some k) =>
    if o.status = .notStarted then
      .ok (some ({ o with n := k, log := true, ctl := true, stats := List.replicate k {} }, .nothing))
    else .ok none
  | .start =>
    if o.status ≠ .notStarted then .error .check
    else .ok (some ({ o with status := .ongoing }, .code eOK))
  | .daemon =>
    if o.resume = true ∨ o.status ≠ .notStarted then .error .check
    else if o.ctl = false then .error .ub
    else .ok none
  | .work l => if o.status = .ongoing ∧ l.length = o.n then .ok (some ({ o with stats := l }, .nothing)) else .ok none
  | .allEnd => if o.status = .ongoing ∧ 0 < o.n then .ok (some ({ o with status := .finished }, .nothing)) else .ok none
  | .finish =>
    match o.status with
    | .notStarted => .ok (some (o, .report o.getReport))
    | .joined => .ok (some (o, .report o.getReport))
    | _ =>
      if o.status = .ongoing ∧ 0 < o.n then .ok none
      else if o.resume = true ∧ o.log = false then .error .ub
      else .ok (some ({ o with status := .joined }, .report (RObj.getReport { o with status := .joined })))

/-- Events one after the other. -/
def rCalls (o : RObj) : List RCall → Except Fault (Option (RObj × List ApiOut))
  | [] => .ok (some (o, []))
  | e :: es =>
    match rCall o e with
    | .error f => .error f
    | .ok none => .ok none
    | .ok (some (o', out)) =>
      match rCalls o' es with
      | .error f => .error f
      | .ok none => .ok none
      | .ok (some (o'', outs)) => .ok (some (o'', out :: outs))

end Wdt
