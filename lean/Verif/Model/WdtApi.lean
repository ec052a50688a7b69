import Verif.Model.ErrorCode
import Verif.Model.Serial
/-
Model of the calls of class `Wdt` (/repo/Wdt.cpp) by several threads of an application:
which sender or receiver object a name stands for.  Model/ResourceController has the
counters; here an object of the controller's maps has an identity, and the counters are the
sizes of the maps (C39).

Namespace and identifier together are one number, the key.  A call of the resource controller
is one step: each has one section that looks at the map of its namespace, under the mutex of
that namespace.  The quota is one number for all keys.
-/
namespace Wdt

/-- Where a call of `wdtSend` is.  `start`: nothing done; `found`: `createSender` said that
there is a sender `old`, of another transfer, and the call is to terminate it
(Wdt.cpp:84-91); `drop`: `abort` was called (line 93); `retry`: `releaseSender` was called
(line 95); `created`: there is a new sender `s` (lines 97-107, 118-122); `running`: `init`
succeeded, `transfer` runs (line 127); `ended`: it returned, with this result (line 128). -/
inductive SPc where
  | start
  | found (old : Nat)
  | drop (old : Nat)
  | retry
  | created (s : Nat)
  | running (s : Nat)
  | ended (s : Nat) (result : ErrCode)
  | returned (code : ErrCode)
deriving DecidableEq, Repr

/-- A call of `wdtSend`: key (`getSenderIdentifier`, Wdt.cpp:59-65), transfer id,
`terminateExistingOne`. -/
structure SendCall where
  key : Nat
  tid : Nat
  terminate : Bool
  pc : SPc := .start
deriving DecidableEq, Repr

/-- `reg`: `sendersMap_`; `tids`: transfer ids of the senders made so far, by their number;
`aborted`: senders for which `abort` was called; `over`: senders whose transfer has ended;
`max`: number of senders allowed, 0 for no limit; `calls`: the calls so far. -/
structure SendSys where
  reg : List (Nat × Nat) := []
  tids : List Nat := []
  aborted : List Nat := []
  over : List Nat := []
  max : Nat := 0
  calls : List SendCall := []
deriving DecidableEq, Repr

/-- The object under a key. -/
def regAt (reg : List (Nat × Nat)) (key : Nat) : Option Nat := (reg.find? fun x => x.1 = key).map (·.2)

/-- `erase` of a key. -/
def regDrop (reg : List (Nat × Nat)) (key : Nat) : List (Nat × Nat) := reg.filter fun x => x.1 ≠ key

/-- `WdtResourceController::createSender` (WdtResourceController.cpp:358-397, 91-116): the quota
is looked at before the map is. -/
def SendSys.create (S : SendSys) (key tid : Nat) : SendSys × ErrCode × Option Nat :=
  if 0 < S.max ∧ S.max ≤ S.reg.length then (S, eQUOTA_EXCEEDED, none)
  else match regAt S.reg key with
    | some s => (S, eALREADY_EXISTS, some s)
    | none => ({ S with reg := (key, S.tids.length) :: S.reg, tids := S.tids ++ [tid] }, eOK, some S.tids.length)

/-- Continue at `pc`. -/
def SendSys.goto (S : SendSys) (i : Nat) (c : SendCall) (pc : SPc) : SendSys := { S with calls := S.calls.set i { c with pc := pc } }

/-- The next step of a call (`createWdtSender`, Wdt.cpp:67-105, `wdtSend`, 112-135).
`initCode`: what `init` says; `result`: the result of the transfer. -/
def SendSys.advance (S : SendSys) (i : Nat) (c : SendCall) (initCode result : ErrCode) : SendSys :=
  match c.pc with
  | .start => match S.create c.key c.tid with
    | (S', code, s) =>
      if code = eALREADY_EXISTS ∧ c.terminate = true then
        match s with
        | none => S'.goto i c (.returned code)
        | some old => if S'.tids[old]? = some c.tid then S'.goto i c (.returned eALREADY_EXISTS) else S'.goto i c (.found old)
      else if code ≠ eOK then S'.goto i c (.returned code)
      else match s with
        | none => S'.goto i c (.returned code)
        | some s => S'.goto i c (.created s)
  | .found old => { S with aborted := old :: S.aborted }.goto i c (.drop old)
  | .drop _ => { S with reg := regDrop S.reg c.key }.goto i c .retry
  | .retry => match S.create c.key c.tid with
    | (S', code, s) =>
      if code ≠ eOK then S'.goto i c (.returned code)
      else match s with
        | none => S'.goto i c (.returned code)
        | some s => S'.goto i c (.created s)
  | .created s => if initCode ≠ eOK then S.goto i c (.returned initCode) else S.goto i c (.running s)
  | .running s => { S with over := s :: S.over }.goto i c (.ended s result)
  | .ended _ r => { S with reg := regDrop S.reg c.key }.goto i c (.returned r)
  | .returned _ => S

/-- What happens: somebody calls `wdtSend`; a call takes its next step; `releaseStaleSenders`
(WdtResourceController.cpp:172-192, 558-572; WdtBase.cpp:168-172); `releaseWdtSender`
(Wdt.cpp:107-110). -/
inductive SendEv where
  | call (key tid : Nat) (terminate : Bool)
  | next (i : Nat) (initCode result : ErrCode)
  | stale
  | release (key : Nat)
deriving DecidableEq, Repr

/-- One event. -/
def SendSys.step (S : SendSys) : SendEv → SendSys
  | .call key tid terminate => { S with calls := S.calls ++ [{ key, tid, terminate }] }
  | .next i initCode result => match S.calls[i]? with
    | none => S
    | some c => S.advance i c initCode result
  | .stale => { S with reg := S.reg.filter fun x => x.2 ∉ S.over }
  | .release key => { S with reg := regDrop S.reg key }

/-- Several. -/
def SendSys.run (S : SendSys) (evs : List SendEv) : SendSys := evs.foldl SendSys.step S

/-! ### Receivers -/

/-- Where a call of `wdtReceiveFinish` is (Wdt.cpp:171-186): `start`; `got`: it has the receiver
and waits in `finish` (line 181); `finished`: that returned; `returned`: its result, if a
receiver was found, is that of receiver `r`. -/
inductive RfPc where
  | start
  | got (r : Nat)
  | finished (r : Nat)
  | returned (r : Option Nat)
deriving DecidableEq, Repr

/-- `reg`: `receiversMap_`; `made`: receivers made so far; `over`: those whose transfer has
ended; `killed`: those that were destroyed during their transfer, which aborts it
(Receiver.cpp:262-270); `calls`: of `wdtReceiveFinish`, with their keys. -/
structure RecvSys where
  reg : List (Nat × Nat) := []
  made : Nat := 0
  over : List Nat := []
  killed : List Nat := []
  calls : List (Nat × RfPc) := []
deriving DecidableEq, Repr

/-- Somebody else holds a reference. -/
def RecvSys.held (S : RecvSys) (r : Nat) : Bool := S.calls.any fun c => c.2 = .got r || c.2 = .finished r

/-- `releaseReceiver` (WdtResourceController.cpp:118-137, 497-516): the object leaves the map,
and is destroyed if this was the last reference. -/
def RecvSys.drop (S : RecvSys) (key : Nat) : RecvSys :=
  match regAt S.reg key with
  | none => S
  | some r => { S with reg := regDrop S.reg key,
                       killed := if r ∈ S.over ∨ S.held r = true then S.killed else r :: S.killed }

/-- What happens: `wdtReceiveStart` (Wdt.cpp:135-169) with a receiver that starts; a transfer ends; a call of
`wdtReceiveFinish`, and its next step. -/
inductive RecvEv where
  | start (key : Nat)
  | over (r : Nat)
  | finish (key : Nat)
  | next (i : Nat)
deriving DecidableEq, Repr

/-- One event.  `finish` of a receiver returns when its transfer has ended. -/
def RecvSys.step (S : RecvSys) : RecvEv → RecvSys
  | .start key => match regAt S.reg key with
    | some _ => S
    | none => { S with reg := (key, S.made) :: S.reg, made := S.made + 1 }
  | .over r => { S with over := r :: S.over }
  | .finish key => { S with calls := S.calls ++ [(key, .start)] }
  | .next i => match S.calls[i]? with
    | none => S
    | some (key, pc) => match pc with
      | .start => match regAt S.reg key with
        | none => { S with calls := S.calls.set i (key, .returned none) }
        | some r => { S with calls := S.calls.set i (key, .got r) }
      | .got r => if r ∈ S.over then { S with calls := S.calls.set i (key, .finished r) } else S
      | .finished r => { S.drop key with calls := S.calls.set i (key, .returned (some r)) }
      | .returned _ => S

/-- Several. -/
def RecvSys.run (S : RecvSys) (evs : List RecvEv) : RecvSys := evs.foldl RecvSys.step S

end Wdt
