import Verif.Model.Chunks
/-
Model of /repo/util/DirectorySourceQueue.cpp: the sender's queue of blocks.

Every public method takes `mutex_` for its whole body, except `getNextSource`,
which releases it while opening the source.  Hence the atomic steps are: one per
method, and for `getNextSource` one step that takes a source out of the queue and
one that records the outcome of `open`.  Waiting on condition variables is
represented by the step not being enabled.
-/
namespace Wdt

/-- Statistics of a block kept in its `TransferStats` (Reporting.h:58-101); only
the fields that the queue and the transfer history use.  `failed` is
`localErrCode_ != OK`. -/
structure SrcStats where
  dataBytes : Int := 0
  effHeaderBytes : Int := 0
  effDataBytes : Int := 0
  numBlocks : Int := 0
  failedAttempts : Int := 0
  failed : Bool := false
deriving DecidableEq, Repr

/-- A `FileByteSource` (FileByteSource.h:36-139) with the metadata of its file
(ByteSource.h:24-57).  The model copies the metadata into the source; in the code
it is shared, and changed only by `createIntoQueueInternal`. -/
structure Source where
  name : Bytes
  seqId : Int
  prevSeqId : Int := 0
  fileSize : Int
  status : AllocStatus
  offset : Int
  size : Int
  stats : SrcStats := {}
deriving DecidableEq, Repr

/-- `SourceComparator` (DirectorySourceQueue.h:340-366): `less a b` means `a` has
lower priority than `b`. -/
def srcLess (a b : Source) : Bool :=
  let d1 := decide (a.status = TO_BE_DELETED)
  let d2 := decide (b.status = TO_BE_DELETED)
  if d1 != d2 then d2
  else if a.stats.failedAttempts ≠ b.stats.failedAttempts then
    decide (a.stats.failedAttempts > b.stats.failedAttempts)
  else if a.size ≠ b.size then decide (a.size < b.size)
  else if a.offset ≠ b.offset then decide (a.offset > b.offset)
  else decide (b.name < a.name)

/-- A discovered file: `relPath` and `size` of `SourceMetaData`
(DirectorySourceQueue.cpp:453-460). -/
structure FileRec where
  name : Bytes
  size : Int
deriving DecidableEq, Repr

/-- Members of `DirectorySourceQueue` (DirectorySourceQueue.h:322-440).  The
priority queue is a list whose order has no meaning. -/
structure QState where
  blockMb : Int
  deleteFiles : Bool := false
  queue : List Source := []
  failed : List Source := []
  deq : Int := 0
  initFinished : Bool := false
  shared : List FileRec := []
  prev : List FileChunksInfo := []
  nextSeqId : Int := 1
  numEntries : Int := 0
  numBlocks : Int := 0
  totalFileSize : Int := 0
  previouslySent : Int := 0
deriving DecidableEq, Repr

/-- `previouslyTransferredChunks_.find(relPath)` -/
def lookupPrev (prev : List FileChunksInfo) (name : Bytes) : Option FileChunksInfo :=
  prev.find? (fun i => decide (i.fileName = name))

/-- The `FileByteSource` made for one block (DirectorySourceQueue.cpp:541-543). -/
def mkSource (f : FileRec) (p : FilePlan) (b : Block) : Source :=
  { name := f.name, seqId := p.seqId, prevSeqId := p.prevSeqId, fileSize := f.size,
    status := p.status, offset := b.offset, size := b.size }

/-- Number of iterations that suffices for the block loop if it ends at all. -/
def fuelFor (rs : List Interval) : Nat := (rs.map fun i => i.size.toNat).sum + 1

/-- `createIntoQueueInternal` (DirectorySourceQueue.cpp:479-555); also returns the
sources pushed. -/
def createInternal (q : QState) (f : FileRec) : Except Fault (QState × List Source) :=
  match planFile (lookupPrev q.prev f.name) f.size q.nextSeqId with
  | .error e => .error e
  | .ok none =>
    .ok ({ q with previouslySent := q.previouslySent +
            (((lookupPrev q.prev f.name).map fun i => totalChunkSize i.chunks).getD 0) }, [])
  | .ok (some p) =>
    match tileAll (effectiveBlockSize q.blockMb f.size) (fuelFor p.remaining) p.remaining with
    | none => .error .hang
    | some bl =>
      let srcs := bl.map (mkSource f p)
      .ok ({ q with
              queue := q.queue ++ srcs
              nextSeqId := p.nextSeqId
              previouslySent := q.previouslySent + p.previouslySent
              numEntries := q.numEntries + 1
              numBlocks := q.numBlocks + bl.length
              totalFileSize := q.totalFileSize + totalChunkSize p.remaining }, srcs)

/-- Locked part of `createIntoQueue` (DirectorySourceQueue.cpp:474-476). -/
def discoverFile (q : QState) (f : FileRec) : Except Fault (QState × List Source) :=
  createInternal { q with shared := q.shared ++ [f] } f

/-- `createIntoQueueInternal` for each file (DirectorySourceQueue.cpp:162-166). -/
def recreateLoop : QState → List FileRec → Except Fault (QState × List Source)
  | q, [] => .ok (q, [])
  | q, f :: fs =>
    match createInternal q f with
    | .error e => .error e
    | .ok (q1, s1) =>
      match recreateLoop q1 fs with
      | .error e => .error e
      | .ok (q2, s2) => .ok (q2, s1 ++ s2)

/-- `unordered_map::insert` keeps an existing entry (DirectorySourceQueue.cpp:157-158). -/
def insertPrev (m : List FileChunksInfo) (i : FileChunksInfo) : List FileChunksInfo :=
  if (lookupPrev m i.fileName).isSome then m else m ++ [i]

/-- Source that asks the receiver to delete a file (DirectorySourceQueue.cpp:660-671). -/
def deletionSource (i : FileChunksInfo) : Source :=
  { name := i.fileName, seqId := i.seqId, fileSize := 0, status := TO_BE_DELETED,
    offset := 0, size := 0 }

/-- `enqueueFilesToBeDeleted` (DirectorySourceQueue.cpp:638-677).  The iteration
order of the unordered map has no effect on the (unordered) queue. -/
def enqueueDeletions (q : QState) : QState × List Source :=
  if !q.deleteFiles then (q, [])
  else if !q.initFinished || q.prev.isEmpty then (q, [])
  else
    let extra := q.prev.filter fun i => !(q.shared.any fun f => decide (f.name = i.fileName))
    let srcs := extra.map deletionSource
    ({ q with
        queue := q.queue ++ srcs
        shared := q.shared ++ extra.map fun i => ⟨i.fileName, 0⟩
        numEntries := q.numEntries + extra.length
        numBlocks := q.numBlocks + extra.length }, srcs)

/-- `setPreviouslyReceivedChunks` (DirectorySourceQueue.cpp:145-168). -/
def setPrev (q : QState) (infos : List FileChunksInfo) : Except Fault (QState × List Source) :=
  if q.deq ≠ 0 then .error .check
  else
    let q1 := { q with
      nextSeqId := infos.foldl (fun n i => max n (i.seqId + 1)) 0
      totalFileSize := 0
      numEntries := 0
      numBlocks := 0
      prev := infos.foldl insertPrev q.prev
      queue := [] }
    match recreateLoop q1 q1.shared with
    | .error e => .error e
    | .ok (q2, s2) =>
      let (q3, s3) := enqueueDeletions q2
      .ok (q3, s2 ++ s3)

/-- End of `buildQueueSynchronously` (DirectorySourceQueue.cpp:222-230). -/
def finishDiscovery (q : QState) : QState × List Source :=
  enqueueDeletions { q with initFinished := true }

/-- `returnToQueue` (DirectorySourceQueue.cpp:422-433). -/
def returnToQueue : QState → List Source → Except Fault QState
  | q, [] => .ok q
  | q, s :: ss =>
    if q.deq > 0 then returnToQueue { q with queue := q.queue ++ [s], deq := q.deq - 1 } ss
    else .error .check

/-- `top` of a priority queue: an element that no element exceeds. -/
def IsTop (q : List Source) (s : Source) : Bool :=
  q.contains s && q.all fun x => !srcLess s x

/-- First half of `getNextSource` (DirectorySourceQueue.cpp:683-705). -/
def popSource (q : QState) (s : Source) : Option QState :=
  if IsTop q.queue s then some { q with queue := q.queue.erase s } else none

/-- `getNextSource` after a successful `open` (DirectorySourceQueue.cpp:709-713).
`open` resets the error code, except for deletions (FileByteSource.cpp:68-97). -/
def openedSource (s : Source) : Source :=
  if s.status = TO_BE_DELETED then s else { s with stats := { s.stats with failed := false } }

/-- `getNextSource` after a failed `open` (DirectorySourceQueue.cpp:714-719). -/
def openFailedSource (s : Source) : Source := { s with stats := { s.stats with failed := true } }

/-- `getFailedSourceStats` (DirectorySourceQueue.cpp:557-564): what is left in the
queue is reported as failed. -/
def drainFailed (q : QState) : QState := { q with failed := q.failed ++ q.queue, queue := [] }

/-! ### The queue with its users -/

/-- The queue and the blocks its users hold.  `opening`: taken out by
`getNextSource`, not opened yet; `held`: returned by `getNextSource` to a sender
thread; `acked`: acknowledged by the receiver.  `created` records all blocks put
into the queue by discovery. -/
structure QSys where
  q : QState
  opening : List Source := []
  held : List Source := []
  acked : List Source := []
  created : List Source := []
deriving DecidableEq, Repr

/-- A step of the discovery thread or of a sender thread. -/
inductive QEvent where
  | discover (f : FileRec)
  | finishDiscovery
  | setPrev (infos : List FileChunksInfo)
  | pop (s : Source)
  | openOk (s : Source)
  | openFail (s : Source)
  /-- a sender thread gives back blocks, possibly shortened and with updated
  statistics: `(held block, block pushed)` -/
  | giveBack (l : List (Source × Source))
  | ack (s : Source)
deriving DecidableEq, Repr

/-- Outcome of a step: done, a fault, or not possible in this state. -/
inductive Res (α : Type) where
  | ok (a : α)
  | fault (f : Fault)
  | blocked
deriving Repr

/-- What identifies a block: file, sequence id and where it ends
(`advanceOffset` moves the start only, FileByteSource.cpp:99-102). -/
def Source.key (s : Source) : Bytes × Int × AllocStatus × Int :=
  (s.name, s.seqId, s.status, s.offset + s.size)

/-- Removing blocks from those held. -/
def takeHeld : List Source → List (Source × Source) → Option (List Source)
  | held, [] => some held
  | held, (s, s') :: l =>
    if held.contains s && decide (s.key = s'.key) then takeHeld (held.erase s) l else none

/-- One step (each method under `mutex_`). -/
def qStep (s : QSys) : QEvent → Res QSys
  | .discover f =>
    if s.q.initFinished then .blocked else
    match discoverFile s.q f with
    | .error e => .fault e
    | .ok (q, new) => .ok { s with q := q, created := s.created ++ new }
  | .finishDiscovery =>
    if s.q.initFinished then .blocked else
    let (q, new) := finishDiscovery s.q
    .ok { s with q := q, created := s.created ++ new }
  | .setPrev infos =>
    match setPrev s.q infos with
    | .error e => .fault e
    | .ok (q, new) => .ok { s with q := q, created := new }
  | .pop x =>
    match popSource s.q x with
    | none => .blocked
    | some q => .ok { s with q := q, opening := x :: s.opening }
  | .openOk x =>
    if s.opening.contains x then
      .ok { s with q := { s.q with deq := s.q.deq + 1 }, opening := s.opening.erase x,
                   held := openedSource x :: s.held }
    else .blocked
  | .openFail x =>
    if s.opening.contains x then
      .ok { s with q := { s.q with failed := s.q.failed ++ [openFailedSource x] },
                   opening := s.opening.erase x }
    else .blocked
  | .giveBack l =>
    match takeHeld s.held l with
    | none => .blocked
    | some held =>
      match returnToQueue s.q (l.map Prod.snd) with
      | .error e => .fault e
      | .ok q => .ok { s with q := q, held := held }
  | .ack x =>
    if s.held.contains x then .ok { s with held := s.held.erase x, acked := x :: s.acked }
    else .blocked

/-- A history of steps. -/
def qRun : QSys → List QEvent → Res QSys
  | s, [] => .ok s
  | s, e :: es =>
    match qStep s e with
    | .ok s' => qRun s' es
    | .fault f => .fault f
    | .blocked => .blocked

/-- A fresh queue (constructor and setters, DirectorySourceQueue.cpp:99-135). -/
def QSys.init (blockMb : Int) (deleteFiles : Bool) : QSys :=
  { q := { blockMb := blockMb, deleteFiles := deleteFiles } }

end Wdt
