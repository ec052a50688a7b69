import Verif.Model.Protocol
/-
Model of interval bookkeeping (/repo/Protocol.cpp:62-107) and of the division of
a file into blocks (/repo/util/DirectorySourceQueue.cpp:479-555).
-/
namespace Wdt

/-- `Interval(start, end)` with its `WDT_CHECK` (Protocol.h:89-91). -/
def mkInterval (a b : Int) : Except Fault Interval :=
  if b ≥ a then .ok ⟨a, b⟩ else .error .check

/-- `Interval::size` (Protocol.h:94-96). -/
def Interval.size (i : Interval) : Int := i.stop - i.start

/-- `getTotalChunkSize` (Protocol.cpp:62-68).  `int64_t` overflow of the sum is
not modelled: sizes of merged chunks of one file add up to at most the file
size. -/
def totalChunkSize (cs : List Interval) : Int := (cs.map Interval.size).foldl (· + ·) 0

/-- Loop of `mergeChunks` (Protocol.cpp:80-90) over the sorted chunks after the
first; `cur` = `curChunk`. -/
def mergeLoop : Interval → List Interval → List Interval
  | cur, [] => [cur]
  | cur, c :: cs =>
    if c.start > cur.stop then cur :: mergeLoop c cs
    else mergeLoop { cur with stop := max cur.stop c.stop } cs

/-- `mergeChunks` (Protocol.cpp:74-92) given the outcome `sorted` of
`std::sort(chunks_)`.  `std::sort` compares start offsets only and is not stable,
so `sorted` stands for any permutation of the chunks ordered by start. -/
def mergeSorted : List Interval → List Interval
  | [] => []
  | c :: cs => mergeLoop c cs

/-- What `std::sort` guarantees (Protocol.cpp:78, Protocol.h:98-100). -/
def IsSortOf (sorted l : List Interval) : Prop :=
  sorted.Perm l ∧ sorted.Pairwise (fun a b => a.start ≤ b.start)

/-- One particular sort, to make the model executable. -/
def sortIntervals (l : List Interval) : List Interval :=
  l.mergeSort (fun a b => decide (a.start ≤ b.start))

/-- `mergeChunks` with that sort. -/
def mergeChunks (l : List Interval) : List Interval := mergeSorted (sortIntervals l)

/-- Loop of `getRemainingChunks` (Protocol.cpp:96-105); `cur` = `curStart`. -/
def remainingLoop (fileSize : Int) : Int → List Interval → Except Fault (List Interval)
  | cur, [] =>
    if cur < fileSize then
      match mkInterval cur fileSize with
      | .error f => .error f
      | .ok i => .ok [i]
    else .ok []
  | cur, c :: cs =>
    if c.start > cur then
      match mkInterval cur c.start, remainingLoop fileSize c.stop cs with
      | .ok i, .ok r => .ok (i :: r)
      | .error f, _ => .error f
      | .ok _, .error f => .error f
    else remainingLoop fileSize c.stop cs

/-- `getRemainingChunks` (Protocol.cpp:94-107). -/
def getRemainingChunks (chunks : List Interval) (fileSize : Int) : Except Fault (List Interval) :=
  remainingLoop fileSize 0 chunks

/-! ### Blocks -/

/-- A block to send: `size` bytes of the file from `offset`
(FileByteSource constructor arguments, DirectorySourceQueue.cpp:541-542). -/
structure Block where
  offset : Int
  size : Int
deriving DecidableEq, Repr

/-- The `do ... while (remainingBytes > 0)` loop (DirectorySourceQueue.cpp:539-548).
`none`: not finished after `fuel` iterations. -/
def tileLoop (blockSize : Int) : Nat → Int → Int → Option (List Block)
  | 0, _, _ => none
  | fuel + 1, offset, remaining =>
    let size := min remaining blockSize
    if remaining - size > 0 then
      (tileLoop blockSize fuel (offset + size) (remaining - size)).map (⟨offset, size⟩ :: ·)
    else some [⟨offset, size⟩]

/-- `for (const auto& chunk : remainingChunks)` (DirectorySourceQueue.cpp:536-550). -/
def tileAll (blockSize : Int) (fuel : Nat) : List Interval → Option (List Block)
  | [] => some []
  | c :: cs =>
    match tileLoop blockSize fuel c.start c.size, tileAll blockSize fuel cs with
    | some a, some b => some (a ++ b)
    | _, _ => none

/-- `blockSize` (DirectorySourceQueue.cpp:491-498): disabled block mode means one
block per file. -/
def effectiveBlockSize (blockSizeMbytes fileSize : Int) : Int :=
  if blockSizeMbytes * 1024 * 1024 > 0 then blockSizeMbytes * 1024 * 1024 else fileSize

/-- Decision of `createIntoQueueInternal` about a file
(DirectorySourceQueue.cpp:500-534). -/
structure FilePlan where
  remaining : List Interval
  seqId : Int
  prevSeqId : Int
  status : AllocStatus
  nextSeqId : Int
  previouslySent : Int
deriving DecidableEq, Repr

/-- First half of `createIntoQueueInternal` (DirectorySourceQueue.cpp:500-534);
`prev` is the entry of `previouslyTransferredChunks_` for the file.  `ok none` =
"completely sent in previous transfer". -/
def planFile (prev : Option FileChunksInfo) (fileSize nextSeqId : Int) :
    Except Fault (Option FilePlan) :=
  match prev with
  | none => match mkInterval 0 fileSize with
    | .error f => .error f
    | .ok i => .ok (some ⟨[i], nextSeqId, 0, NOT_EXISTS, nextSeqId + 1, 0⟩)
  | some info =>
    if info.fileSize > fileSize then
      match mkInterval 0 fileSize with
      | .error f => .error f
      | .ok i => .ok (some ⟨[i], nextSeqId, info.seqId, EXISTS_TOO_LARGE, nextSeqId + 1, 0⟩)
    else match getRemainingChunks info.chunks fileSize with
      | .error f => .error f
      | .ok [] => .ok none
      | .ok (c :: cs) => .ok (some ⟨c :: cs, info.seqId, 0,
          if info.fileSize < fileSize then EXISTS_TOO_SMALL else EXISTS_CORRECT_SIZE,
          nextSeqId, totalChunkSize info.chunks⟩)

/-- Blocks of one file (DirectorySourceQueue.cpp:479-550). -/
def fileBlocks (blockSizeMbytes : Int) (prev : Option FileChunksInfo) (fileSize nextSeqId : Int)
    (fuel : Nat) : Except Fault (Option (List Block)) :=
  match planFile prev fileSize nextSeqId with
  | .error f => .error f
  | .ok none => .ok (some [])
  | .ok (some p) => .ok (tileAll (effectiveBlockSize blockSizeMbytes fileSize) fuel p.remaining)

end Wdt
