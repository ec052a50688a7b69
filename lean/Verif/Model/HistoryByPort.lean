import Verif.Model.History
/-
Model of how the threads of a sender find their accounts of sent blocks: the map from port to history of
`TransferHistoryController` (/repo/util/ThreadTransferHistory.cpp:239-256, 273-284) and the wait of a
thread that has been told of another connection's failure (lines 55-66, 233-237).

`History.lean` gives every thread its own history.  Here a thread has a port and finds its history by that
port, as in the code, and the checkpoints in an ERR command may name any port.  The queue that blocks are
given back to is left out (it is in `History.lean`).
-/
namespace Wdt

/-- What a thread does with its own history while it sends. -/
inductive HpOp where
  /-- a block was sent, or sending it failed (SenderThread.cpp:282-314) -/
  | add (s : Source)
  /-- checkpoint read when a connection is resumed (SenderThread.cpp:151-206) -/
  | localCp (cp : Checkpoint)
  /-- the receiver said DONE (SenderThread.cpp:759-779) -/
  | markAll
deriving DecidableEq, Repr

/-- The history after `o` (ThreadTransferHistory.cpp:34-53, 124-127). -/
def hpOp (h : Hist) : HpOp → Except Fault Hist
  | .add s => .ok (addSource h s).1
  | .localCp cp => (setCheckpoint h cp false).map fun r => r.2.1
  | .markAll => .ok (markAll h)

/-- Where a sender thread is. -/
inductive HpPh where
  | run
  /-- in the loop over the checkpoints of an ERR command (SenderThread.cpp:822-825) -/
  | proc (cps : List Checkpoint)
  /-- inside `setGlobalCheckpoint` for `cp`, waiting (ThreadTransferHistory.cpp:59-64) -/
  | wait (cp : Checkpoint) (rest : List Checkpoint)
  | ended
deriving DecidableEq, Repr

/-- Ports of the threads, `threadHistoriesMap_`, where the threads are. -/
structure HpSys where
  ports : List Int
  hists : Int → Option Hist
  ph : Nat → HpPh

/-- `addThreadHistory` (ThreadTransferHistory.cpp:251-256): `emplace` does nothing if there is an entry. -/
def hpEmplace (m : Int → Option Hist) (p : Int) : Int → Option Hist :=
  fun q => if q = p then some ((m p).getD {}) else m q

/-- The sender after its threads were made, one for each port of the request (Sender.cpp:345-346,
SenderThread.h:83-84). -/
def hpInit (ports : List Int) : HpSys :=
  { ports := ports, hists := ports.foldl hpEmplace (fun _ => none), ph := fun _ => .run }

def hpSetH (m : Int → Option Hist) (p : Int) (h : Hist) : Int → Option Hist :=
  fun q => if q = p then some h else m q

def hpSetP (f : Nat → HpPh) (t : Nat) (x : HpPh) : Nat → HpPh := fun u => if u = t then x else f u

/-- Steps of thread `t`. -/
inductive HpEv where
  | op (t : Nat) (o : HpOp)
  /-- an ERR command with these checkpoints was read (SenderThread.cpp:790-821) -/
  | err (t : Nat) (cps : List Checkpoint)
  /-- the next checkpoint is handled, or the loop ends -/
  | next (t : Nat)
  /-- the wait ends -/
  | wake (t : Nat)
  /-- the thread ends (SenderThread.cpp:992-993) -/
  | exit (t : Nat)
deriving DecidableEq, Repr

def HpEv.thread : HpEv → Nat
  | .op t _ | .err t _ | .next t | .wake t | .exit t => t

/-- One step.  A history is found with `getTransferHistory` (ThreadTransferHistory.cpp:244-249), which
checks that there is one; `handleGlobalCheckpoint` (lines 273-284) ignores a port that no thread has.  The
result of `setGlobalCheckpoint` is not looked at (line 283), and it waits also if the checkpoint was
refused (lines 58-64).  `wake` stands for the wake-up after which the loop finds `inUse_` false. -/
def hpStep (s : HpSys) : HpEv → Res HpSys
  | .op t o =>
    match s.ph t, s.ports[t]? with
    | .run, some p =>
      match s.hists p with
      | none => .fault .check
      | some h =>
        match hpOp h o with
        | .error f => .fault f
        | .ok h' => .ok { s with hists := hpSetH s.hists p h' }
    | _, _ => .blocked
  | .err t cps =>
    match s.ph t, s.ports[t]? with
    | .run, some _ => .ok { s with ph := hpSetP s.ph t (.proc cps) }
    | _, _ => .blocked
  | .next t =>
    match s.ph t with
    | .proc [] => .ok { s with ph := hpSetP s.ph t .run }
    | .proc (c :: cs) =>
      match s.hists c.port with
      | none => .ok { s with ph := hpSetP s.ph t (.proc cs) }
      | some h =>
        match setCheckpoint h c true with
        | .error f => .fault f
        | .ok (_, h', _) => .ok { s with hists := hpSetH s.hists c.port h', ph := hpSetP s.ph t (.wait c cs) }
    | _ => .blocked
  | .wake t =>
    match s.ph t with
    | .wait c cs =>
      match s.hists c.port with
      | none => .blocked
      | some h => if h.inUse then .blocked else .ok { s with ph := hpSetP s.ph t (.proc cs) }
    | _ => .blocked
  | .exit t =>
    match s.ph t, s.ports[t]? with
    | .run, some p =>
      match s.hists p with
      | none => .fault .check
      | some h => .ok { s with hists := hpSetH s.hists p { h with inUse := false }, ph := hpSetP s.ph t .ended }
    | _, _ => .blocked

/-- A run. -/
def hpRun : HpSys → List HpEv → Res HpSys
  | s, [] => .ok s
  | s, e :: es =>
    match hpStep s e with
    | .ok s' => hpRun s' es
    | .fault f => .fault f
    | .blocked => .blocked

/-- Checkpoints of other connections that a thread has still to handle or waits for. -/
def HpPh.todo : HpPh → List Checkpoint
  | .proc cs => cs
  | .wait c cs => c :: cs
  | _ => []

end Wdt
