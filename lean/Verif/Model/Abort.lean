import Verif.Model.Negotiation
import Verif.Model.ErrorCode
import Verif.Model.SourceQueue
import Verif.Model.ThreadsController
/-
Model of aborting a transfer (/repo/WdtBase.cpp:30-63) and of what the threads of a sender
do after a receiver asked for another protocol version (/repo/SenderThread.cpp:829-984).
-/
namespace Wdt

/-! ### The abort code -/

/-- `abort` (WdtBase.cpp:31-40): `cur` is `abortCode_`. -/
def abortWith (cur new : ErrCode) : ErrCode :=
  if new = eVERSION_MISMATCH ∧ cur ≠ eOK then cur else new

/-- `clearAbort` (WdtBase.cpp:42-50). -/
def clearAbort (cur : ErrCode) : ErrCode := if cur ≠ eVERSION_MISMATCH then cur else eOK

/-- `getCurAbortCode` (WdtBase.cpp:56-64); `ext`: the application's abort checker says so. -/
def curAbortCode (ext : Bool) (cur : ErrCode) : ErrCode := if ext then eABORTED_BY_APPLICATION else cur

/-- A call. -/
inductive AbortCall where
  | abort (c : ErrCode)
  | clear
deriving DecidableEq, Repr

/-- Calls, each under `abortCodeLock_`. -/
def abortCalls (cur : ErrCode) (cs : List AbortCall) : ErrCode :=
  cs.foldl (fun cur c => match c with
    | .abort e => abortWith cur e
    | .clear => clearAbort cur) cur

/-! ### The threads -/

/-- `ProtoNegotiationStatus` (Sender.h:23-27). -/
inductive NegoStatus where
  | wait | resolved | failed
deriving DecidableEq, Repr

/-- Where a sender thread is. -/
inductive VPc where
  /-- SenderThread.cpp:969-978: about to look at the abort code; `mismatch`: the state is
  PROCESS_VERSION_MISMATCH -/
  | check (mismatch : Bool)
  /-- in the function of a state other than PROCESS_VERSION_MISMATCH -/
  | working
  /-- SenderThread.cpp:869: begins `processVersionMismatch` -/
  | enter
  /-- SenderThread.cpp:885: waits at the barrier -/
  | barrier
  /-- SenderThread.cpp:888-889, 924: asks the funnel, or sleeps there -/
  | asking
  /-- SenderThread.cpp:891-922: inside the funnel -/
  | inside
  /-- SenderThread.cpp:1000: out of the loop and deregistered -/
  | ended
deriving DecidableEq, Repr

/-- The sender: `abortCode_`, `protoNegotiationStatus_`, the protocol version of the
request, `isComplete_` of the barrier, the funnel; for each thread its place,
`threadProtocolVersion_` and `negotiatedProtocol_`. -/
structure VSys where
  code : ErrCode := eOK
  nego : NegoStatus := .wait
  parentVer : Int
  complete : Bool := false
  funnel : FunStatus := .start
  pc : Nat → VPc := fun _ => .check false
  ver : Nat → Int
  negotiated : Nat → Int := fun _ => 0

/-- At the start of a transfer: every thread has the version of the request
(SenderThread.h:78-79). -/
def VSys.init (v : Int) : VSys := { parentVer := v, ver := fun _ => v }

/-- A thread that will not come to the barrier any more, or is there. -/
def VPc.arrived : VPc → Bool
  | .barrier => true
  | .ended => true
  | _ => false

/-- `checkForFinish` (ThreadsController.cpp, `Barrier`): after a thread hit the barrier or
left it, it is complete if all others did.  Simplified: the counters of `Barrier` are
replaced by what they count (`C31_no_early_pass`, `C31_released_partial`). -/
def VSys.settle (n : Nat) (s : VSys) : VSys :=
  { s with complete := s.complete || (List.range n).all fun t => (s.pc t).arrived }

/-- What happens. -/
inductive VEv where
  /-- thread `t` looks at the abort code; `ext`: `getCurAbortCode` with the application's
  checker -/
  | check (t : Nat) (ext : Bool)
  /-- the function of the state returns another state -/
  | work (t : Nat)
  /-- `connect` found the abort code VERSION_MISMATCH (SenderThread.cpp:131-134) -/
  | sawMismatch (t : Nat)
  /-- the function of the state returns END, or a global checkpoint ends the thread -/
  | finish (t : Nat)
  /-- `processAbortCmd` (SenderThread.cpp:829-867) with what the receiver sent -/
  | abortMsg (t : Nat) (remote : ErrCode) (version : Int)
  /-- SenderThread.cpp:870-885 -/
  | enter (t : Nat)
  /-- leaves the barrier -/
  | pass (t : Nat)
  /-- asks the funnel (SenderThread.cpp:889, 926-939) -/
  | ask (t : Nat)
  /-- SenderThread.cpp:892-922; `unacked`: `handleVersionMismatch` succeeded -/
  | resolve (t : Nat) (unacked : Bool)
  /-- the application calls `abort` -/
  | appAbort (e : ErrCode)
deriving DecidableEq, Repr

/-- The loop of `start` (SenderThread.cpp:970-979). -/
def VSys.doCheck (n : Nat) (s : VSys) (t : Nat) (ext mismatch : Bool) : VSys :=
  if curAbortCode ext s.code = eOK then
    { s with pc := upd s.pc t (if mismatch then .enter else .working) }
  else if curAbortCode ext s.code = eVERSION_MISMATCH then { s with pc := upd s.pc t .enter }
  else VSys.settle n { s with pc := upd s.pc t .ended }

/-- `processAbortCmd` after the message was read (SenderThread.cpp:846-867). -/
def VSys.doAbortMsg (n : Nat) (s : VSys) (t : Nat) (remote : ErrCode) (v : Int) : VSys :=
  if remote = eVERSION_MISMATCH ∧ negotiateProtocol v (s.ver t) = v then
    { s with code := abortWith s.code remote, negotiated := upd s.negotiated t v, pc := upd s.pc t (.check true) }
  else VSys.settle n { s with code := abortWith s.code remote, pc := upd s.pc t .ended }

/-- The beginning of `processVersionMismatch` and hitting the barrier
(SenderThread.cpp:872-885, `Barrier::execute`). -/
def VSys.doEnter (n : Nat) (s : VSys) (t : Nat) : Res VSys :=
  match s.nego with
  | .failed => .fault .check
  | .resolved => .ok (VSys.settle n { s with pc := upd s.pc t .ended })
  | .wait =>
    if s.complete then .fault .check
    else .ok (VSys.settle n { s with pc := upd s.pc t .barrier })

/-- The switch over the status of the funnel (SenderThread.cpp:889-939). -/
def VSys.doAsk (n : Nat) (s : VSys) (t : Nat) : Res VSys :=
  match s.funnel with
  | .start => .ok { s with funnel := .progress, nego := .failed, pc := upd s.pc t .inside }
  | .progress => .blocked
  | .stop => match s.nego with
    | .wait => .fault .check
    | .failed => .ok (VSys.settle n { s with pc := upd s.pc t .ended })
    | .resolved => .ok { s with ver := upd s.ver t s.parentVer, pc := upd s.pc t (.check false) }

/-- The thread inside the funnel (SenderThread.cpp:893-922). -/
def VSys.doResolve (n : Nat) (s : VSys) (t : Nat) (unacked : Bool) : Res VSys :=
  if !unacked then .ok (VSys.settle n { s with funnel := .stop, pc := upd s.pc t .ended })
  else match combineNegotiated 0 ((List.range n).map s.negotiated) with
    | .error f => .fault f
    | .ok none => .ok (VSys.settle n { s with funnel := .stop, pc := upd s.pc t .ended })
    | .ok (some v) => .ok { s with
        parentVer := v, ver := upd s.ver t v, nego := .resolved, code := clearAbort s.code
        funnel := .stop, pc := upd s.pc t (.check false) }

/-- One step of a sender with `n` threads. -/
def vStep (n : Nat) (s : VSys) : VEv → Res VSys
  | .check t ext => if t < n then match s.pc t with
      | .check m => .ok (s.doCheck n t ext m)
      | _ => .blocked
    else .blocked
  | .work t => if t < n ∧ s.pc t = .working then .ok { s with pc := upd s.pc t (.check false) } else .blocked
  | .sawMismatch t =>
    if t < n ∧ s.pc t = .working ∧ s.code = eVERSION_MISMATCH then .ok { s with pc := upd s.pc t (.check true) } else .blocked
  | .finish t => if t < n ∧ s.pc t = .working then .ok (VSys.settle n { s with pc := upd s.pc t .ended }) else .blocked
  | .abortMsg t remote v => if t < n ∧ s.pc t = .working then .ok (s.doAbortMsg n t remote v) else .blocked
  | .enter t => if t < n ∧ s.pc t = .enter then s.doEnter n t else .blocked
  | .pass t => if t < n ∧ s.pc t = .barrier ∧ s.complete then .ok { s with pc := upd s.pc t .asking } else .blocked
  | .ask t => if t < n ∧ s.pc t = .asking then s.doAsk n t else .blocked
  | .resolve t unacked => if t < n ∧ s.pc t = .inside then s.doResolve n t unacked else .blocked
  | .appAbort e => .ok { s with code := abortWith s.code e }

/-- A history. -/
def vRun (n : Nat) : VSys → List VEv → Res VSys
  | s, [] => .ok s
  | s, e :: es => match vStep n s e with
    | .ok s' => vRun n s' es
    | .fault f => .fault f
    | .blocked => .blocked

end Wdt
