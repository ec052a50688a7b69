import Verif.Model.ErrorCode
import Verif.Model.Serial
/-
Model of the resource controller (/repo/WdtResourceController.cpp).

Senders and receivers are handled by duplicated code; here a `RKind` argument.
Namespaces and identifiers are numbers.  A call of the controller consists of sections
that hold `controllerMutex_` of the root or of a namespace; each section is one step,
and the steps of different calls interleave freely.  A call in progress is a `RPend`
that says which section comes next; it holds a reference to the namespace object, which
may meanwhile be removed from the map.
-/
namespace Wdt

inductive RKind where
  | sender | receiver
deriving DecidableEq, Repr

/-- `WdtNamespaceController` (WdtResourceController.h:65-142): registered name (`none`
once removed from `namespaceMap_`), keys of `sendersMap_` / `receiversMap_`,
`numSenders_` / `numReceivers_`, limits. -/
structure NsObj where
  reg : Option Nat
  ids : RKind → List Nat
  num : RKind → Int
  max : RKind → Int

/-- What remains to be done of a call. -/
inductive RPend where
  /-- createSender after the reservation (WdtResourceController.cpp:385-386) -/
  | create (k : RKind) (obj id : Nat)
  /-- createSender failed in the namespace (lines 387-389) -/
  | createFailed (k : RKind)
  /-- releaseSender with the namespace found (line 469) -/
  | release (k : RKind) (obj id : Nat)
  /-- releaseAllSenders with the namespace found (line 489) -/
  | releaseAll (k : RKind) (obj : Nat)
  /-- releaseStaleSenders with the namespace found (line 566) -/
  | releaseStale (k : RKind) (obj : Nat)
  /-- subtract from the global number (lines 470-471, 490-493, 567-570) -/
  | dec (k : RKind) (n : Nat)
  /-- deRegisterWdtNamespace: removed from the map, nothing released yet (line 658) -/
  | dereg (obj : Nat)
  /-- senders released (line 659) -/
  | dereg2 (obj : Nat) (senders : Nat)
  /-- both released (lines 661-665) -/
  | dereg3 (senders receivers : Nat)
deriving DecidableEq, Repr

/-- `WdtResourceController`: namespaces (also removed ones that calls in progress still
refer to), `numSenders_` / `numReceivers_`, limits, limits for new namespaces,
`strictRegistration_`, calls in progress. -/
structure RCtl where
  objs : List NsObj := []
  num : RKind → Int := fun _ => 0
  max : RKind → Int
  nsMax : RKind → Int
  strict : Bool := false
  pend : List RPend := []

/-- Function update. -/
def updK {α} (f : RKind → α) (k : RKind) (v : α) : RKind → α := fun k' => if k' = k then v else f k'

/-- `getNamespaceController` (WdtResourceController.cpp:701-710). -/
def RCtl.find (s : RCtl) (name : Nat) : Option Nat := s.objs.findIdx? (·.reg = some name)

/-- `createNamespaceController` and the constructor (WdtResourceController.cpp:36-42,
624-631). -/
def RCtl.newNs (s : RCtl) (name : Nat) : RCtl :=
  { s with objs := s.objs ++ [{ reg := some name, ids := fun _ => [], num := fun _ => 0, max := s.nsMax }] }

/-- `hasSenderQuota` of a namespace (WdtResourceController.cpp:81-89). -/
def NsObj.hasQuota (o : NsObj) (k : RKind) : Bool := !(decide (o.num k ≥ o.max k) && decide (o.max k > 0))

/-- `createSender` of a namespace (WdtResourceController.cpp:91-116): new object and
whether the result is OK. -/
def NsObj.create (o : NsObj) (k : RKind) (id : Nat) : NsObj × ErrCode :=
  if id ∈ o.ids k then (o, eALREADY_EXISTS)
  else if !o.hasQuota k then (o, eQUOTA_EXCEEDED)
  else ({ o with ids := updK o.ids k (id :: o.ids k), num := updK o.num k (o.num k + 1) }, eOK)

/-- `releaseSender` of a namespace (WdtResourceController.cpp:139-155). -/
def NsObj.release (o : NsObj) (k : RKind) (id : Nat) : NsObj × ErrCode :=
  if id ∈ o.ids k then
    ({ o with ids := updK o.ids k ((o.ids k).erase id), num := updK o.num k (o.num k - 1) }, eOK)
  else (o, eNOT_FOUND)

/-- `releaseAllSenders` of a namespace (WdtResourceController.cpp:157-170): new object
and number released. -/
def NsObj.releaseAll (o : NsObj) (k : RKind) : NsObj × Nat :=
  ({ o with ids := updK o.ids k [], num := updK o.num k 0 }, (o.ids k).length)

/-- `releaseStaleSenders` of a namespace (WdtResourceController.cpp:172-192). -/
def NsObj.releaseStale (o : NsObj) (k : RKind) (stale : Nat → Bool) : NsObj × Nat :=
  let gone := (o.ids k).filter stale
  ({ o with ids := updK o.ids k ((o.ids k).filter fun i => !stale i), num := updK o.num k (o.num k - gone.length) },
   gone.length)

/-- `hasSenderQuotaInternal` (WdtResourceController.cpp:343-356) for an existing
namespace object. -/
def RCtl.hasQuota (s : RCtl) (k : RKind) (o : NsObj) : Bool :=
  if decide (s.num k ≥ s.max k) && decide (s.max k > 0) then false else o.hasQuota k

/-- What may happen next: the first section of a call, or the next one of a call in
progress. -/
inductive REv where
  | create (k : RKind) (name id : Nat)
  | release (k : RKind) (name id : Nat)
  | releaseAll (k : RKind) (name : Nat)
  | releaseStale (k : RKind) (name : Nat)
  | register (name : Nat)
  | deregister (name : Nat)
  | shutdown
  | setMax (k : RKind) (v : Int)
  | setNsMax (k : RKind) (name : Nat) (v : Int)
  | setStrict (b : Bool)
  /-- next section of the i-th call in progress; which transfers are stale -/
  | run (i : Nat) (stale : Nat → Bool)

/-- Reserve a sender of an existing namespace (WdtResourceController.cpp:377-382). -/
def RCtl.reserve (s : RCtl) (k : RKind) (i id : Nat) : RCtl :=
  match s.objs[i]? with
  | none => s
  | some o =>
    if s.hasQuota k o then
      { s with num := updK s.num k (s.num k + 1), pend := s.pend ++ [.create k i id] }
    else s

/-- The next section of a call. -/
def RCtl.cont (s : RCtl) (stale : Nat → Bool) : RPend → RCtl
  -- lines 384-397
  | .create k i id =>
    match s.objs[i]? with
    | none => s
    | some o =>
      let (o', code) := o.create k id
      { s with objs := s.objs.set i o', pend := if code = eOK then s.pend else s.pend ++ [.createFailed k] }
  | .createFailed k => { s with num := updK s.num k (s.num k - 1) }
  -- lines 469-476
  | .release k i id =>
    match s.objs[i]? with
    | none => s
    | some o =>
      let (o', code) := o.release k id
      { s with objs := s.objs.set i o', pend := if code = eOK then s.pend ++ [.dec k 1] else s.pend }
  -- lines 489-494
  | .releaseAll k i =>
    match s.objs[i]? with
    | none => s
    | some o =>
      let (o', n) := o.releaseAll k
      { s with objs := s.objs.set i o', pend := if n > 0 then s.pend ++ [.dec k n] else s.pend }
  -- lines 566-571
  | .releaseStale k i =>
    match s.objs[i]? with
    | none => s
    | some o =>
      let (o', n) := o.releaseStale k stale
      { s with objs := s.objs.set i o', pend := if n > 0 then s.pend ++ [.dec k n] else s.pend }
  | .dec k n => { s with num := updK s.num k (s.num k - n) }
  -- lines 658-665
  | .dereg i =>
    match s.objs[i]? with
    | none => s
    | some o =>
      let (o', n) := o.releaseAll .sender
      { s with objs := s.objs.set i o', pend := s.pend ++ [.dereg2 i n] }
  | .dereg2 i ns =>
    match s.objs[i]? with
    | none => s
    | some o =>
      let (o', n) := o.releaseAll .receiver
      { s with objs := s.objs.set i o', pend := s.pend ++ [.dereg3 ns n] }
  | .dereg3 ns nr =>
    { s with num := updK (updK s.num .sender (s.num .sender - ns)) .receiver (s.num .receiver - nr) }

/-- Total number over the registered namespaces. -/
def regCount (k : RKind) (objs : List NsObj) : Nat :=
  ((objs.filter (·.reg.isSome)).map fun o => (o.ids k).length).sum

/-- `shutdown` (WdtResourceController.cpp:307-321).  It holds the root lock throughout;
sections of namespaces that run meanwhile are as good as before or after it. -/
def RCtl.shutdown (s : RCtl) : Except Fault RCtl :=
  let num := fun k => s.num k - regCount k s.objs
  let clear := fun o : NsObj => if o.reg.isSome then
    { o with reg := none, ids := fun _ => [], num := fun _ => 0 } else o
  if num .receiver ≠ 0 ∨ num .sender ≠ 0 then .error .check
  else .ok { s with num := num, objs := s.objs.map clear }

/-- One step.  Calls that do not find their namespace return without effect. -/
def RCtl.step (s : RCtl) : REv → Except Fault RCtl
  -- createSender, lines 364-382
  | .create k name id =>
    match s.find name with
    | some i => .ok (s.reserve k i id)
    | none =>
      if s.strict then .ok s
      else
        let s := s.newNs name
        .ok (s.reserve k (s.objs.length - 1) id)
  | .release k name id => .ok (match s.find name with
    | some i => { s with pend := s.pend ++ [.release k i id] }
    | none => s)
  | .releaseAll k name => .ok (match s.find name with
    | some i => { s with pend := s.pend ++ [.releaseAll k i] }
    | none => s)
  | .releaseStale k name => .ok (match s.find name with
    | some i => { s with pend := s.pend ++ [.releaseStale k i] }
    | none => s)
  -- registerWdtNamespace, lines 633-642
  | .register name => .ok (if (s.find name).isSome then s else s.newNs name)
  -- deRegisterWdtNamespace, lines 644-657
  | .deregister name => .ok (match s.find name with
    | none => s
    | some i => match s.objs[i]? with
      | none => s
      | some o => { s with objs := s.objs.set i { o with reg := none }, pend := s.pend ++ [.dereg i] })
  | .shutdown => s.shutdown
  | .setMax k v => .ok { s with max := updK s.max k v }
  | .setNsMax k name v => .ok (match s.find name with
    | none => s
    | some i => match s.objs[i]? with
      | none => s
      | some o => { s with objs := s.objs.set i { o with max := updK o.max k v } })
  | .setStrict b => .ok { s with strict := b }
  | .run i stale => match s.pend[i]? with
    | none => .ok s
    | some p => .ok (RCtl.cont { s with pend := s.pend.eraseIdx i } stale p)

/-- A run. -/
def RCtl.exec : RCtl → List REv → Except Fault RCtl
  | s, [] => .ok s
  | s, e :: es => match s.step e with
    | .error f => .error f
    | .ok s' => s'.exec es

/-- A call of `createSender` / `createReceiver` (WdtResourceController.cpp:358-397,
420-457) with no other call in progress. -/
def RCtl.createCall (s : RCtl) (k : RKind) (name id : Nat) : RCtl × ErrCode :=
  let s := if (s.find name).isNone && !s.strict then s.newNs name else s
  match s.find name with
  | none => (s, eNOT_FOUND)
  | some i => match s.objs[i]? with
    | none => (s, eNOT_FOUND)
    | some o =>
      if !s.hasQuota k o then (s, eQUOTA_EXCEEDED)
      else
        let (o', code) := o.create k id
        if code = eOK then ({ s with objs := s.objs.set i o', num := updK s.num k (s.num k + 1) }, eOK) else (s, code)

/-- A call of `releaseSender` / `releaseReceiver` (WdtResourceController.cpp:459-477, 497-516)
with no other call in progress. -/
def RCtl.releaseCall (s : RCtl) (k : RKind) (name id : Nat) : RCtl :=
  match s.find name with
  | none => s
  | some i => match s.objs[i]? with
    | none => s
    | some o =>
      let (o', code) := o.release k id
      if code = eOK then { s with objs := s.objs.set i o', num := updK s.num k (s.num k - 1) } else s

/-- `Wdt::createWdtSender` (Wdt.cpp:67-105): `same` says whether an existing sender under
the identifier has the transfer id of the request. -/
def RCtl.createWdtSender (s : RCtl) (name id : Nat) (terminate same : Bool) : RCtl × ErrCode :=
  let (s1, code) := s.createCall .sender name id
  if code = eALREADY_EXISTS ∧ terminate then
    if same then (s1, eALREADY_EXISTS)
    else (s1.releaseCall .sender name id).createCall .sender name id
  else (s1, code)

/-- `Wdt::wdtSend` (Wdt.cpp:112-133): `initCode` is the result of `sender->init()`,
`result` that of the transfer. -/
def RCtl.wdtSend (s : RCtl) (name id : Nat) (terminate same : Bool) (initCode result : ErrCode) : RCtl × ErrCode :=
  let (s1, code) := s.createWdtSender name id terminate same
  if code ≠ eOK then (s1, code)
  else if initCode ≠ eOK then (s1, initCode)
  else (s1.releaseCall .sender name id, result)

/-- `Wdt::wdtReceiveStart` (Wdt.cpp:135-169): `startCode` is the result of
`transferAsync`. -/
def RCtl.wdtReceiveStart (s : RCtl) (name id : Nat) (initCode startCode : ErrCode) : RCtl × ErrCode :=
  let (s1, code) := s.createCall .receiver name id
  if code ≠ eOK then (s1, code)
  else if initCode ≠ eOK then (s1, initCode)
  else (s1, startCode)

end Wdt
