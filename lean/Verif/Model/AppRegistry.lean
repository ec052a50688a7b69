import Verif.Model.SourceQueue
/-
Model of the objects of class `Wdt`, one per application name (/repo/Wdt.cpp:8-42, 49-52,
201-229), with the options each of them carries and what is made of them when senders are
created (/repo/WdtResourceController.cpp:36-42, 81-116, 285-296, 343-397).  Any number of threads call.
-/
namespace Wdt

/-- Options of an object (WdtOptions.h).  `rate` stands for those of the throttler,
`globalLimit` and `nsLimit` are `global_sender_limit` and `namespace_sender_limit`, `other` stands
for all that only the transfers themselves look at. -/
structure AppOpts where
  rate : Int := 0
  globalLimit : Int := 0
  nsLimit : Int := 0
  other : Int := 0
deriving DecidableEq, Repr

/-- A sender that was made: for which object, in which namespace, with which options
(WdtResourceController.cpp:110-111), and the rate of the object's throttler then. -/
structure AppXfer where
  obj : Nat
  ns : Bytes
  opts : AppOpts
  rate : Int
deriving DecidableEq, Repr

/-- A namespace of an object: its limit and number of senders (WdtResourceController.cpp:36-42). -/
structure AppNs where
  name : Bytes
  limit : Int
  senders : Int := 0
deriving DecidableEq, Repr

/-- An object (Wdt.h:126-138) with its resource controller.  `owner` and `epoch` are for the
statements: the name for which it was made and how many objects of that name had been released
before. -/
structure AppObj where
  owner : Bytes
  epoch : Nat
  alive : Bool := true
  initDone : Bool := false
  appName : Bytes := []
  opts : AppOpts
  rate : Int
  globalLimit : Int
  senders : Int := 0
  spaces : List AppNs := []
deriving DecidableEq, Repr

/-- A call. -/
inductive AppCall where
  | initialize (n : Bytes)
  | get (n : Bytes)
  | release (n : Bytes)
deriving DecidableEq, Repr

/-- Where a thread is.  `k`: how many objects of that name had been released when the name was
looked up (for the statements only). -/
inductive AppPc where
  | idle
  /-- initializeWdt, before the test of the static variable (Wdt.cpp:10) -/
  | initFlags (n : Bytes)
  /-- the test succeeded; the global options are to be filled (Wdt.cpp:11-12) -/
  | initGlobal (n : Bytes)
  /-- before `getWdtInternal` (Wdt.cpp:14) -/
  | initLook (n : Bytes)
  /-- before the test of `initDone_` (Wdt.cpp:23) -/
  | initTest (n : Bytes) (id k : Nat)
  /-- before `appName_ = appName` (Wdt.cpp:27) -/
  | initName (n : Bytes) (id k : Nat)
  /-- before `initDone_ = true` (Wdt.cpp:28) -/
  | initMark (n : Bytes) (id k : Nat)
  /-- before the rates are set (Wdt.cpp:29-30) -/
  | initRates (n : Bytes) (id k : Nat)
  /-- getWdt, before `getWdtInternal` (Wdt.cpp:36) -/
  | getLook (n : Bytes)
  /-- before the test of `initDone_` (Wdt.cpp:37) -/
  | getTest (n : Bytes) (id k : Nat)
  /-- releaseWdt, before the lock (Wdt.cpp:222) -/
  | release (n : Bytes)
deriving DecidableEq, Repr

/-- A reference that was returned: by initializeWdt or getWdt, for which name, to which object.
`k` as above. -/
structure AppRet where
  init : Bool
  name : Bytes
  id : Nat
  k : Nat
deriving DecidableEq, Repr

/-- The process.  Objects are numbered in the order in which they are made; `map` is `s_wdtMap`.
`flags` is what the command line flags say (`WdtFlags::initializeFromFlags`). -/
structure AppSys where
  flags : AppOpts
  globalDone : Bool := false
  global : Option AppOpts := none
  map : List (Bytes × Nat) := []
  objs : List AppObj := []
  released : Bytes → Nat := fun _ => 0
  pc : Nat → AppPc := fun _ => .idle
  rets : List AppRet := []
  xfers : List AppXfer := []

/-- What happens: a thread `t` begins a call, makes a step in it; through a reference somebody
changes the options of an object (`getWdtOptions`) or has a sender made in a namespace. -/
inductive AppEvent where
  | start (t : Nat) (c : AppCall)
  | step (t : Nat)
  | setOpts (id : Nat) (o : AppOpts)
  | create (id : Nat) (ns : Bytes)
deriving DecidableEq, Repr

/-- Thread `t` goes to `p`. -/
def AppSys.goto (s : AppSys) (t : Nat) (p : AppPc) : AppSys :=
  { s with pc := fun v => if v = t then p else s.pc v }

/-- `s_wdtMap.find` (Wdt.cpp:208, 223). -/
def AppSys.find (s : AppSys) (n : Bytes) : Option Nat :=
  (s.map.find? fun e => decide (e.1 = n)).map (·.2)

/-- An object that exists; using another one is undefined behaviour. -/
def AppSys.obj (s : AppSys) (id : Nat) : Option AppObj :=
  match s.objs[id]? with
  | some o => if o.alive then some o else none
  | none => none

/-- Change an object. -/
def AppSys.put (s : AppSys) (id : Nat) (o : AppObj) : AppSys := { s with objs := s.objs.set id o }

/-- `new Wdt()` (Wdt.cpp:49-52): options from the flags, a resource controller with its limit
and its throttler made from them (WdtResourceController.cpp:285-296). -/
def AppSys.newObj (s : AppSys) (n : Bytes) : AppObj :=
  { owner := n, epoch := s.released n, opts := s.flags, rate := s.flags.rate, globalLimit := s.flags.globalLimit }

/-- `getWdtInternal` with a factory, under the lock (Wdt.cpp:205-218): the object and the state. -/
def AppSys.findOrMake (s : AppSys) (n : Bytes) : Nat × AppSys :=
  match s.find n with
  | some id => (id, s)
  | none => (s.objs.length, { s with map := s.map ++ [(n, s.objs.length)], objs := s.objs ++ [s.newObj n] })

/-- One step of a call (Wdt.cpp:8-42, 220-229). -/
def AppSys.advance (s : AppSys) (t : Nat) : Res AppSys :=
  match s.pc t with
  | .idle => .blocked
  | .initFlags n => .ok (s.goto t (if s.globalDone then .initLook n else .initGlobal n))
  | .initGlobal n => .ok ({ s with global := some s.flags, globalDone := true }.goto t (.initLook n))
  | .initLook n =>
    let (id, s') := s.findOrMake n
    .ok (s'.goto t (.initTest n id (s.released n)))
  | .initTest n id k =>
    match s.obj id with
    | none => .fault .ub
    | some o =>
      if o.initDone then .ok (({ s with rets := s.rets ++ [AppRet.mk true n id k] } : AppSys).goto t .idle)
      else .ok (s.goto t (.initName n id k))
  | .initName n id k =>
    match s.obj id with
    | none => .fault .ub
    | some o => .ok ((s.put id { o with appName := n }).goto t (.initMark n id k))
  | .initMark n id k =>
    match s.obj id with
    | none => .fault .ub
    | some o => .ok ((s.put id { o with initDone := true }).goto t (.initRates n id k))
  | .initRates n id k =>
    match s.obj id with
    | none => .fault .ub
    | some o => .ok (({ s.put id { o with rate := o.opts.rate } with rets := s.rets ++ [AppRet.mk true n id k] } : AppSys).goto t .idle)
  | .getLook n =>
    match s.find n with
    | none => .fault .check
    | some id => .ok (s.goto t (.getTest n id (s.released n)))
  | .getTest n id k =>
    match s.obj id with
    | none => .fault .ub
    | some o =>
      if o.initDone then .ok (({ s with rets := s.rets ++ [AppRet.mk false n id k] } : AppSys).goto t .idle) else .fault .check
  | .release n =>
    match s.find n with
    | none => .ok (s.goto t .idle)
    | some id =>
      match s.obj id with
      | none => .fault .ub
      | some o => .ok ({ s.put id { o with alive := false } with
          map := s.map.filter fun e => decide (e.1 ≠ n)
          released := fun m => if m = n then s.released m + 1 else s.released m }.goto t .idle)

/-- The first step of a call. -/
def AppCall.pc : AppCall → AppPc
  | .initialize n => .initFlags n
  | .get n => .getLook n
  | .release n => .release n

/-- The namespace is made when it is seen for the first time, with the limit the options say then
(WdtResourceController.cpp:365-376, 36-42; namespaces are not registered beforehand). -/
def AppObj.withSpace (o : AppObj) (ns : Bytes) : AppObj :=
  if o.spaces.any fun x => decide (x.name = ns) then o
  else { o with spaces := o.spaces ++ [⟨ns, o.opts.nsLimit, 0⟩] }

/-- `createSender` of a namespace and of the resource controller (WdtResourceController.cpp:358-397,
91-116), as one step and with an identifier that is not in use: the limits are those kept in the controllers (:343-356, 81-89); the rates
are set from the options (:383-384), the sender gets a copy of the options (:110-111).  Senders are
not released here (C38 and C39 are about that). -/
def AppObj.createSender (o : AppObj) (id : Nat) (ns : Bytes) : AppObj × Option AppXfer :=
  let o := o.withSpace ns
  if decide (o.senders ≥ o.globalLimit ∧ o.globalLimit > 0) ||
      o.spaces.any (fun x => decide (x.name = ns ∧ x.senders ≥ x.limit ∧ x.limit > 0)) then (o, none)
  else
    let o' := { o with
      rate := o.opts.rate
      senders := o.senders + 1
      spaces := o.spaces.map fun x => if x.name = ns then { x with senders := x.senders + 1 } else x }
    (o', some ⟨id, ns, o.opts, o'.rate⟩)

/-- What happens, one by one. -/
def AppSys.event (s : AppSys) : AppEvent → Res AppSys
  | .start t c => if s.pc t = .idle then .ok (s.goto t c.pc) else .blocked
  | .step t => s.advance t
  | .setOpts id v =>
    match s.obj id with
    | none => .fault .ub
    | some o => .ok (s.put id { o with opts := v })
  | .create id ns =>
    match s.obj id with
    | none => .fault .ub
    | some o => .ok { s.put id (o.createSender id ns).1 with xfers := s.xfers ++ (o.createSender id ns).2.toList }

/-- A history. -/
def appRun : AppSys → List AppEvent → Res AppSys
  | s, [] => .ok s
  | s, e :: es =>
    match s.event e with
    | .ok s' => appRun s' es
    | .fault f => .fault f
    | .blocked => .blocked

end Wdt
