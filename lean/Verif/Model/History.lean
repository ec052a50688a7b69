import Verif.Model.SourceQueue
/-
Model of /repo/util/ThreadTransferHistory.cpp: which blocks a sender thread has
sent, which of them are acknowledged, and what a checkpoint does; and of the sender
threads that share one queue.

A history's methods hold its mutex for their whole body and call the queue once,
which takes the queue's mutex for its whole body.  So one method call is one step.
-/
namespace Wdt

/-- `ThreadTransferHistory` (ThreadTransferHistory.h:132-152) with the statistics of
its thread (`threadStats_`).  `history` is oldest first. -/
structure Hist where
  history : List Source := []
  globalCp : Bool := false
  numAcked : Int := 0
  lastCp : Option Checkpoint := none
  inUse : Bool := true
  stats : SrcStats := {}
deriving DecidableEq, Repr

/-- Codes returned by `setLocalCheckpoint`. -/
inductive CpRes where
  | ok | invalid | noProgress
deriving DecidableEq, Repr

/-- `validateCheckpoint` (ThreadTransferHistory.cpp:136-179). -/
def validateCp (last : Option Checkpoint) (cp : Checkpoint) (global : Bool) : Except Fault CpRes :=
  match last with
  | none => .ok .ok
  | some l =>
    if cp.numBlocks < l.numBlocks then .ok .invalid
    else if cp.numBlocks > l.numBlocks then .ok .ok
    else if cp.lastBlockSeqId = l.lastBlockSeqId ∧ cp.lastBlockOffset = l.lastBlockOffset then
      if cp.lastBlockReceivedBytes ≠ l.lastBlockReceivedBytes then .ok .invalid
      else if global then .ok .ok else .ok .noProgress
    else if cp.lastBlockReceivedBytes < 0 then .error .check
    else if cp.lastBlockReceivedBytes = 0 ∧ !global then .ok .noProgress
    else .ok .ok

/-- Bytes of `s` that checkpoint `cp` says were received
(ThreadTransferHistory.cpp:183-207). -/
def cpBytes (s : Source) (cp : Option Checkpoint) : Int :=
  match cp with
  | none => 0
  | some c =>
    if c.hasSeqId then
      if c.lastBlockSeqId = s.seqId ∧ c.lastBlockOffset = s.offset then c.lastBlockReceivedBytes else 0
    else c.lastBlockReceivedBytes

/-- `advanceOffset` (FileByteSource.cpp:99-102). -/
def advanceOffset (s : Source) (n : Int) : Source := { s with offset := s.offset + n, size := s.size - n }

/-- `markSourceAsFailed` (ThreadTransferHistory.cpp:181-226): new source and new
thread statistics. -/
def markFailed (s : Source) (ts : SrcStats) (cp : Option Checkpoint) : Source × SrcStats :=
  let r := cpBytes s cp
  let st := s.stats
  if st.failed then
    (advanceOffset { s with stats := { st with effDataBytes := st.effDataBytes + r } } r,
     { ts with effDataBytes := ts.effDataBytes + r })
  else
    let h := st.effHeaderBytes
    let wasted := s.size - r
    (advanceOffset { s with stats := { st with
        effHeaderBytes := st.effHeaderBytes - h
        effDataBytes := st.effDataBytes - wasted
        numBlocks := st.numBlocks - 1
        failed := true
        failedAttempts := st.failedAttempts + 1 } } r,
     { ts with
        effHeaderBytes := ts.effHeaderBytes - h
        effDataBytes := ts.effDataBytes - wasted
        numBlocks := ts.numBlocks - 1
        failedAttempts := ts.failedAttempts + 1 })

/-- The loop over the unacknowledged blocks, newest first; the last one (the oldest)
gets the checkpoint (ThreadTransferHistory.cpp:93-101).  Returns for each block its
state before and after. -/
def failBack (cp : Checkpoint) : List Source → SrcStats → List (Source × Source) × SrcStats
  | [], ts => ([], ts)
  | [s], ts =>
    let (s', ts') := markFailed s ts (some cp)
    ([(s, s')], ts')
  | s :: rest, ts =>
    let (s', ts') := markFailed s ts none
    let (l, ts'') := failBack cp rest ts'
    ((s, s') :: l, ts'')

/-- `setCheckpointAndReturnToQueue` (ThreadTransferHistory.cpp:67-109), up to the call
of `returnToQueue`: result code, new history and the blocks given back.  A negative
number of blocks would pop from an empty vector. -/
def setCheckpoint (h : Hist) (cp : Checkpoint) (global : Bool) :
    Except Fault (CpRes × Hist × List (Source × Source)) :=
  if cp.numBlocks > h.history.length then .ok (.invalid, h, [])
  else
    match validateCp h.lastCp cp global with
    | .error e => .error e
    | .ok .invalid => .ok (.invalid, h, [])
    | .ok code =>
      if cp.numBlocks < 0 then .error .ub
      else
        let n := cp.numBlocks.toNat
        let (l, ts) := failBack cp (h.history.drop n).reverse h.stats
        .ok (code, { h with
          globalCp := h.globalCp || global
          lastCp := some cp
          numAcked := cp.numBlocks
          history := h.history.take n
          stats := ts }, l)

/-- `addSource` (ThreadTransferHistory.cpp:34-47): new history and the block given
back, if any. -/
def addSource (h : Hist) (s : Source) : Hist × List (Source × Source) :=
  if h.globalCp then
    let (s', ts) := markFailed s h.stats h.lastCp
    ({ h with lastCp := none, stats := ts }, [(s, s')])
  else ({ h with history := h.history ++ [s] }, [])

/-- `markAllAcknowledged` (ThreadTransferHistory.cpp:124-127). -/
def markAll (h : Hist) : Hist := { h with numAcked := h.history.length }

/-- `returnUnackedSourcesToQueue` (ThreadTransferHistory.cpp:129-134); the other
fields of the checkpoint have their defaults (Protocol.h:34-53). -/
def returnUnacked (h : Hist) : Except Fault (CpRes × Hist × List (Source × Source)) :=
  setCheckpoint h { numBlocks := h.numAcked } false

/-- `popAckedSourceStats` (ThreadTransferHistory.cpp:111-122): statistics of the
blocks left, newest first. -/
def popAcked (h : Hist) : Except Fault (List SrcStats × Hist) :=
  if h.numAcked = h.history.length then
    .ok (h.history.reverse.map Source.stats, { h with history := [] })
  else .error .check

/-- Outcome of `sendOneByteSource` (SenderThread.cpp:316-446).  On success all of the
block was written (lines 402-418); on failure some bytes may have been. -/
inductive SendOut where
  | ok (headerBytes : Int)
  | fail (dataBytes : Int)
deriving DecidableEq, Repr

/-- Statistics returned by `sendOneByteSource`. -/
def sendStats (s : Source) : SendOut → SrcStats
  | .ok hb => { dataBytes := s.size, effHeaderBytes := hb, effDataBytes := s.size, numBlocks := 1 }
  | .fail d => { dataBytes := d, failedAttempts := 1, failed := true }

/-- `TransferStats::operator+=` (Reporting.cpp:23-63) on the fields kept here. -/
def SrcStats.add (a b : SrcStats) : SrcStats :=
  { dataBytes := a.dataBytes + b.dataBytes
    effHeaderBytes := a.effHeaderBytes + b.effHeaderBytes
    effDataBytes := a.effDataBytes + b.effDataBytes
    numBlocks := a.numBlocks + b.numBlocks
    failedAttempts := a.failedAttempts + b.failedAttempts
    failed := a.failed || b.failed }

/-! ### Sender threads sharing a queue -/

/-- A sender thread: its history, the block it is opening and the block it is
sending. -/
structure SThread where
  hist : Hist := {}
  opening : Option Source := none
  cur : Option Source := none
deriving DecidableEq, Repr

/-- Bytes a checkpoint credited to a block: they will not be sent again. -/
structure Credit where
  key : Bytes × Int × AllocStatus × Int
  lo : Int
  hi : Int
deriving DecidableEq, Repr

/-- The sender: queue and threads.  `created` and `credits` only record history. -/
structure SSys where
  q : QState
  threads : List SThread
  created : List Source := []
  credits : List Credit := []
deriving DecidableEq, Repr

/-- Steps. -/
inductive SEvent where
  | discover (f : FileRec)
  | finishDiscovery
  | setPrev (infos : List FileChunksInfo)
  | pop (t : Nat) (s : Source)
  | openOk (t : Nat)
  | openFail (t : Nat)
  | sent (t : Nat) (o : SendOut)
  | localCp (t : Nat) (cp : Checkpoint)
  | globalCp (t : Nat) (cp : Checkpoint)
  | markAll (t : Nat)
  | returnUnacked (t : Nat)
  | exit (t : Nat)
deriving DecidableEq, Repr

/-- What a give-back credits. -/
def creditOf (p : Source × Source) : Credit := ⟨p.1.key, p.1.offset, p.2.offset⟩

/-- Give blocks back and install a thread's new state. -/
def giveBack (s : SSys) (t : Nat) (th : SThread) (l : List (Source × Source)) : Res SSys :=
  match returnToQueue s.q (l.map Prod.snd) with
  | .error e => .fault e
  | .ok q => .ok { s with q := q, threads := s.threads.set t th, credits := s.credits ++ l.map creditOf }

/-- Outcome of a checkpoint for thread `t`. -/
def applyCp (s : SSys) (t : Nat) (th : SThread) (r : Except Fault (CpRes × Hist × List (Source × Source))) :
    Res SSys :=
  match r with
  | .error e => .fault e
  | .ok (_, h, l) => giveBack s t { th with hist := h } l

/-- One step of the sender.  `getNextSource`, `sendBlocks` (SenderThread.cpp:282-314),
`setLocalCheckpoint`, `setGlobalCheckpoint` (called by another thread),
`markAllAcknowledged`, `returnUnackedSourcesToQueue`, `markNotInUse`. -/
def sStep (s : SSys) : SEvent → Res SSys
  | .discover f =>
    if s.q.initFinished then .blocked else
    match discoverFile s.q f with
    | .error e => .fault e
    | .ok (q, new) => .ok { s with q := q, created := s.created ++ new }
  | .finishDiscovery =>
    if s.q.initFinished then .blocked else
    let (q, new) := finishDiscovery s.q
    .ok { s with q := q, created := s.created ++ new }
  | .setPrev infos =>
    match setPrev s.q infos with
    | .error e => .fault e
    | .ok (q, new) => .ok { s with q := q, created := new }
  | .pop t x =>
    match s.threads[t]? with
    | some ⟨h, none, none⟩ =>
      if !h.inUse then .blocked else
      match popSource s.q x with
      | none => .blocked
      | some q => .ok { s with q := q, threads := s.threads.set t ⟨h, some x, none⟩ }
    | _ => .blocked
  | .openOk t =>
    match s.threads[t]? with
    | some ⟨h, some x, none⟩ =>
      .ok { s with q := { s.q with deq := s.q.deq + 1 },
                   threads := s.threads.set t ⟨h, none, some (openedSource x)⟩ }
    | _ => .blocked
  | .openFail t =>
    match s.threads[t]? with
    | some ⟨h, some x, none⟩ =>
      .ok { s with q := { s.q with failed := s.q.failed ++ [openFailedSource x] },
                   threads := s.threads.set t ⟨h, none, none⟩ }
    | _ => .blocked
  | .sent t o =>
    match s.threads[t]? with
    | some ⟨h, none, some x⟩ =>
      let d := sendStats x o
      let x' := { x with stats := x.stats.add d }
      let (h', l) := addSource { h with stats := h.stats.add d } x'
      giveBack s t ⟨h', none, none⟩ l
    | _ => .blocked
  | .localCp t cp =>
    match s.threads[t]? with
    | some th => if th.cur.isSome || th.opening.isSome || !th.hist.inUse then .blocked
      else applyCp s t th (setCheckpoint th.hist cp false)
    | none => .blocked
  | .globalCp t cp =>
    match s.threads[t]? with
    | some th => applyCp s t th (setCheckpoint th.hist cp true)
    | none => .ok s
  | .markAll t =>
    match s.threads[t]? with
    | some th => .ok { s with threads := s.threads.set t { th with hist := markAll th.hist } }
    | none => .blocked
  | .returnUnacked t =>
    match s.threads[t]? with
    | some th => applyCp s t th (returnUnacked th.hist)
    | none => .blocked
  | .exit t =>
    match s.threads[t]? with
    | some th => if th.cur.isSome || th.opening.isSome then .blocked
      else .ok { s with threads := s.threads.set t { th with hist := { th.hist with inUse := false } } }
    | none => .blocked

/-- A history of steps. -/
def sRun : SSys → List SEvent → Res SSys
  | s, [] => .ok s
  | s, e :: es =>
    match sStep s e with
    | .ok s' => sRun s' es
    | .fault f => .fault f
    | .blocked => .blocked

/-- First loop of `Sender::finish` (Sender.cpp:211-227): if some thread ended OK
everything is taken as acknowledged, otherwise what is not goes back to the queue. -/
def finishThreads (anyOk : Bool) : SSys → List Nat → Res SSys
  | s, [] => .ok s
  | s, t :: ts =>
    match sStep s (if anyOk then .markAll t else .returnUnacked t) with
    | .ok s' => finishThreads anyOk s' ts
    | .fault f => .fault f
    | .blocked => .blocked

/-- `popAckedSourceStats` for every thread (Sender.cpp:220-226).  In the code it is
called inside the first loop; the histories of different threads are independent. -/
def popAll : List SThread → Except Fault (List SrcStats)
  | [] => .ok []
  | th :: ths =>
    match popAcked th.hist with
    | .error e => .error e
    | .ok (st, _) =>
      match popAll ths with
      | .error e => .error e
      | .ok r => .ok (st ++ r)

/-- `validateTransferStats` (Sender.cpp:371-408): four `CHECK`s. -/
def validateStats (transferred failed threads : List SrcStats) : Except Fault Unit :=
  let tot (f : SrcStats → Int) (l : List SrcStats) : Int := (l.map f).sum
  let same (f : SrcStats → Int) : Bool := tot f transferred + tot f failed == tot f threads
  if same SrcStats.failedAttempts && same SrcStats.dataBytes && same SrcStats.effDataBytes &&
      same SrcStats.numBlocks then .ok () else .error .check

/-- `Sender::finish` with `full_reporting` on (Sender.cpp:210-232): statistics of the
transferred and of the failed blocks. -/
def finishReport (s : SSys) (anyOk : Bool) : Res (List SrcStats × List SrcStats) :=
  match finishThreads anyOk s (List.range s.threads.length) with
  | .fault f => .fault f
  | .blocked => .blocked
  | .ok s1 =>
    match popAll s1.threads with
    | .error e => .fault e
    | .ok tr =>
      let failed := (drainFailed s1.q).failed.map Source.stats
      match validateStats tr failed (s1.threads.map fun th => th.hist.stats) with
      | .error e => .fault e
      | .ok () => .ok (tr, failed)

/-- A sender before it starts, with `n` threads. -/
def SSys.init (blockMb : Int) (deleteFiles : Bool) (n : Nat) : SSys :=
  { q := { blockMb := blockMb, deleteFiles := deleteFiles }, threads := List.replicate n {} }

end Wdt
