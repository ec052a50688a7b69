import Verif.Model.ResourceController
/-
Model of what the resource controller hands out (/repo/WdtResourceController.cpp): which sender and receiver objects
its calls return, besides the counting that Model/ResourceController.lean is about.

Simplified: each call is one step (interleavings of the sections of calls are in
Model/ResourceController.lean).  Namespaces and identifiers are numbers; a sender or receiver object is a number,
its identity.  Setting throttler and options of a new object is left out, and so is waiting for other users of a removed
namespace (WdtResourceController.cpp:667-671): with calls one after the other there are none.
-/
namespace Wdt

/-- `WdtNamespaceController` (WdtResourceController.h:65-142): `sendersMap_` / `receiversMap_` (identifier, object),
`numSenders_` / `numReceivers_`, limits. -/
structure TrNs where
  map : RKind → List (Nat × Nat) := fun _ => []
  num : RKind → Int := fun _ => 0
  max : RKind → Int

/-- `WdtResourceController` (WdtResourceController.h:149-294): keys and values of `namespaceMap_`, counters, limits, limits of
new namespaces, `strictRegistration_`; `next` is the identity the next object gets. -/
structure TrCtl where
  names : List Nat := []
  ns : Nat → Option TrNs := fun _ => none
  num : RKind → Int := fun _ => 0
  max : RKind → Int
  nsMax : RKind → Int
  strict : Bool := false
  next : Nat := 0

/-- The calls. -/
inductive TrOp where
  | create (k : RKind) (n id : Nat)
  | release (k : RKind) (n id : Nat)
  | releaseAll (k : RKind) (n : Nat)
  /-- `stale`: which objects are stale -/
  | releaseStale (k : RKind) (n : Nat) (stale : Nat → Bool)
  | get (k : RKind) (n id : Nat)
  | getAll (k : RKind) (n : Nat)
  | getIds (k : RKind) (n : Nat)
  | hasQuota (k : RKind) (n : Nat)
  | counts
  | register (n : Nat)
  | deregister (n : Nat)
  | shutdown
  | setMax (k : RKind) (v : Int)
  | setNsMax (k : RKind) (n : Nat) (v : Int)
  | setStrict (b : Bool)

/-- What calls return. -/
inductive TrRes where
  | made (c : ErrCode) (obj : Option Nat)
  | code (c : ErrCode)
  | erased (c : ErrCode) (ids : List Nat)
  | ptr (o : Option Nat)
  | ptrs (os : List Nat)
  | ids (is : List Nat)
  | quota (b : Bool)
  | counts (names : Nat) (senders receivers : Int)
  | void
deriving DecidableEq, Repr

/-- Change of one namespace object. -/
def TrCtl.put (s : TrCtl) (n : Nat) (x : TrNs) : TrCtl := { s with ns := fun m => if m = n then some x else s.ns m }

/-- `createNamespaceController` (WdtResourceController.cpp:624-631) and the constructor of the namespace (36-42); the
key is new. -/
def TrCtl.newNs (s : TrCtl) (n : Nat) : TrCtl :=
  { s with names := s.names ++ [n], ns := fun m => if m = n then some { max := s.nsMax } else s.ns m }

/-- `hasSenderQuota` and `hasReceiverQuota` of a namespace (WdtResourceController.cpp:44-52, 81-89). -/
def TrNs.hasQuota (x : TrNs) (k : RKind) : Bool := !(decide (x.num k ≥ x.max k) && decide (x.max k > 0))

/-- `hasSenderQuotaInternal` and `hasReceiverQuotaInternal` (WdtResourceController.cpp:343-356, 405-418). -/
def TrCtl.hasQuota (s : TrCtl) (k : RKind) (x : Option TrNs) : Bool :=
  if decide (s.num k ≥ s.max k) && decide (s.max k > 0) then false
  else match x with
    | some x => x.hasQuota k
    | none => true

/-- `createSender` and `createReceiver` of a namespace (WdtResourceController.cpp:54-79, 91-116): namespace, code, object. -/
def TrNs.create (x : TrNs) (k : RKind) (id obj : Nat) : TrNs × ErrCode × Option Nat :=
  match (x.map k).find? (·.1 == id) with
  | some e => (x, eALREADY_EXISTS, some e.2)
  | none =>
    if !x.hasQuota k then (x, eQUOTA_EXCEEDED, none)
    else ({ x with map := updK x.map k ((id, obj) :: x.map k), num := updK x.num k (x.num k + 1) }, eOK, some obj)

/-- `createSender` and `createReceiver` (WdtResourceController.cpp:358-397, 420-457). -/
def TrCtl.create (s : TrCtl) (k : RKind) (n id : Nat) : TrCtl × TrRes :=
  if s.ns n = none ∧ s.strict then (s, .made eNOT_FOUND none)
  else
    let s1 := if s.ns n = none then s.newNs n else s
    match s1.ns n with
    | none => (s1, .made eNOT_FOUND none)
    | some x =>
      if !s1.hasQuota k (some x) then (s1, .made eQUOTA_EXCEEDED none)
      else match x.create k id s1.next with
        | (x', c, o) =>
          let s2 := (s1.put n x')
          -- 382, and 387-389 if it failed
          if c = eOK then ({ s2 with num := updK s1.num k (s1.num k + 1), next := s1.next + 1 }, .made c o)
          else (s2, .made c o)

/-- `releaseSender` and `releaseReceiver` of a namespace (WdtResourceController.cpp:118-137, 139-155). -/
def TrNs.release (x : TrNs) (k : RKind) (id : Nat) : TrNs × ErrCode :=
  match (x.map k).find? (·.1 == id) with
  | none => (x, eNOT_FOUND)
  | some _ => ({ x with map := updK x.map k ((x.map k).filter (·.1 != id)), num := updK x.num k (x.num k - 1) }, eOK)

/-- `releaseAllSenders` and `releaseAllReceivers` of a namespace (WdtResourceController.cpp:157-170, 194-207). -/
def TrNs.releaseAll (x : TrNs) (k : RKind) : TrNs × Nat :=
  ({ x with map := updK x.map k [], num := updK x.num k 0 }, (x.map k).length)

/-- `releaseStaleSenders` and `releaseStaleReceivers` of a namespace (WdtResourceController.cpp:172-192, 209-229). -/
def TrNs.releaseStale (x : TrNs) (k : RKind) (stale : Nat → Bool) : TrNs × List Nat :=
  ({ x with map := updK x.map k ((x.map k).filter fun e => !stale e.2),
            num := updK x.num k (x.num k - ((x.map k).filter fun e => stale e.2).length) },
   ((x.map k).filter fun e => stale e.2).map (·.1))

/-- One call (WdtResourceController.cpp, the lines given below). -/
def TrCtl.step (s : TrCtl) : TrOp → Except Fault (TrCtl × TrRes)
  | .create k n id => .ok (s.create k n id)
  -- 459-477, 497-516
  | .release k n id =>
    match s.ns n with
    | none => .ok (s, .code eERROR)
    | some x =>
      if (x.release k id).2 = eOK then
        .ok ({ s.put n (x.release k id).1 with num := updK s.num k (s.num k - 1) }, .code eOK)
      else .ok (s, .code eERROR)
  -- 479-495, 518-534
  | .releaseAll k n =>
    match s.ns n with
    | none => .ok (s, .code eERROR)
    | some x => .ok ({ s.put n (x.releaseAll k).1 with num := updK s.num k (s.num k - (x.releaseAll k).2) }, .code eOK)
  -- 558-572, 608-622
  | .releaseStale k n stale =>
    match s.ns n with
    | none => .ok (s, .erased eNOT_FOUND [])
    | some x => .ok ({ s.put n (x.releaseStale k stale).1 with num := updK s.num k (s.num k - (x.releaseStale k stale).2.length) },
        .erased eOK (x.releaseStale k stale).2)
  -- 231-252 and 536-545, 574-583
  | .get k n id =>
    match s.ns n with
    | none => .ok (s, .ptr none)
    | some x => .ok (s, .ptr (((x.map k).find? (·.1 == id)).map (·.2)))
  -- 254-270 and 547-556, 585-594
  | .getAll k n =>
    match s.ns n with
    | none => .ok (s, .ptrs [])
    | some x => .ok (s, .ptrs ((x.map k).map (·.2)))
  -- 272-279 and 596-606 (only for senders)
  | .getIds k n =>
    match s.ns n with
    | none => .ok (s, .ids [])
    | some x => .ok (s, .ids ((x.map k).map (·.1)))
  -- 337-341, 399-403
  | .hasQuota k n => .ok (s, .quota (s.hasQuota k (s.ns n)))
  -- 327-335 (simplified: the numbers are cut to 32 bits)
  | .counts => .ok (s, .counts s.names.length (s.num .sender) (s.num .receiver))
  -- 633-642
  | .register n => if s.ns n = none then .ok (s.newNs n, .code eOK) else .ok (s, .code eOK)
  -- 644-673
  | .deregister n =>
    match s.ns n with
    | none => .ok (s, .code eERROR)
    | some x => .ok ({ s with names := s.names.erase n, ns := fun m => if m = n then none else s.ns m,
                              num := fun k => s.num k - (x.releaseAll k).2 }, .code eOK)
  -- 307-321
  | .shutdown =>
    let num := fun k => s.num k - ((s.names.map fun n => match s.ns n with | some x => (x.map k).length | none => 0).sum : Nat)
    if num .receiver = 0 ∧ num .sender = 0 then .ok ({ s with names := [], ns := fun _ => none, num := num }, .void)
    else .error .check
  -- 18-30
  | .setMax k v => .ok ({ s with max := updK s.max k v }, .void)
  -- 676-690
  | .setNsMax k n v =>
    match s.ns n with
    | none => .ok (s, .void)
    | some x => .ok (s.put n { x with max := updK x.max k v }, .void)
  -- 712-714
  | .setStrict b => .ok ({ s with strict := b }, .void)

/-- Calls one after the other; the history has the latest call first. -/
inductive TrTrace (s0 : TrCtl) : List (TrOp × TrRes) → TrCtl → Prop
  | nil : TrTrace s0 [] s0
  | cons {h : List (TrOp × TrRes)} {s s' : TrCtl} {op : TrOp} {r : TrRes} (t : TrTrace s0 h s) (e : s.step op = .ok (s', r)) :
      TrTrace s0 ((op, r) :: h) s'

end Wdt
