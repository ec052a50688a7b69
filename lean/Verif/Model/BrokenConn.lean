import Verif.Model.SenderStream
import Verif.Model.History
/-
Model of a sender thread and a receiver thread over several connections, byte by byte: every
connection carries the bytes of `sendStream` and may break after any of them; then the
receiver's checkpoint decides what is sent again.

Simplified: one thread on each side, no tags (so data received before a break counts,
ReceiverThread.cpp:482-491), no resumption, no heart-beats, the checkpoint of the receiver
is handed over as a value (its encoding is the subject of C07), the statistics of
the sources are not kept up to date, the files do not change while they are sent, no limit on
the number of connections without progress (SenderThread.cpp:120-126, 200-204).
-/
namespace Wdt

/-- `checkpoint_` of a receiver thread (ReceiverThread.h:324, Protocol.h:36-75): number of
blocks, and the last three fields if they are set. -/
structure RcvCp where
  numBlocks : Nat := 0
  last : Option (Int × Int × Int) := none
deriving DecidableEq, Repr

/-- What a receiver thread does with its checkpoint: `resetLastBlockDetails` at the beginning of a
FILE command (ReceiverThread.cpp:405), `setLastBlockDetails` if the block is not complete and
there are no checksums (482-491), `incrNumBlocks` when a block is complete, with checksums when
its checksum is right (654, 662, 668-671). -/
def RcvCp.step (footer : Bool) (c : RcvCp) : RObs → RcvCp
  | .block _ _ true => { numBlocks := if footer then c.numBlocks else c.numBlocks + 1, last := none }
  | .block b d false => { c with last := if footer then none else some (b.seqId, b.offset, d.length) }
  | .verified _ => { c with numBlocks := c.numBlocks + 1 }
  | _ => c

/-- The local checkpoint that is sent on the next connection (ReceiverThread.cpp:233-255); fields
that are not set are zero. -/
def RcvCp.msg (c : RcvCp) : Checkpoint :=
  { numBlocks := c.numBlocks
    lastBlockSeqId := (c.last.getD (0, 0, 0)).1
    lastBlockOffset := (c.last.getD (0, 0, 0)).2.1
    lastBlockReceivedBytes := (c.last.getD (0, 0, 0)).2.2
    hasSeqId := true }

/-- The header of a source (SenderThread.cpp:328-336). -/
def Source.details (x : Source) : BlockDetails :=
  { fileName := x.name, seqId := x.seqId, fileSize := x.fileSize, offset := x.offset, dataSize := x.size,
    allocationStatus := x.status, prevSeqId := x.prevSeqId }

/-- The bytes of a source, `src` being the contents of the files by sequence id
(FileByteSource.cpp:59-64, 104-160). -/
def Source.data (src : Int → Bytes) (x : Source) : Bytes := ((src x.seqId).drop x.offset.toNat).take x.size.toNat

/-- What a sender thread sends between the settings and DONE (SenderThread.cpp:281-314,
448-464): a source, or the total size. -/
inductive BItem where
  | file (status : UInt8) (x : Source)
  | size (total : Int)
deriving DecidableEq, Repr

/-- The bytes that are sent for an item (SenderThread.cpp:316-464). -/
def BItem.sent (src : Int → Bytes) : BItem → SItem
  | .file st x => .block st x.details (x.data src)
  | .size t => .size t

/-- The source of an item. -/
def BItem.source : BItem → Option Source
  | .file _ x => some x
  | .size _ => none

/-- What does not change from connection to connection. -/
structure BCfg where
  /-- the thread's version, the version for headers, the receiver's version -/
  ver : Int
  hver : Int
  rver : Int
  crc : Int → UInt8 → Int
  st : Settings
  src : Int → Bytes

/-- One connection: what is sent on it (`rest` is what stays in the queue), how many bytes arrive,
and how they are cut into pieces; the contents of the buffers; what DONE says. -/
structure BTry where
  items : List BItem
  rest : List Source
  arrive : Nat
  frag : List Int → Nat
  buf : Bytes
  hbuf : Bytes
  rbuf : Bytes
  footer0 : Bool
  status : UInt8
  numBlocks : Int
  total : Int

/-- The sources sent on a connection. -/
def BTry.sources (t : BTry) : List Source := t.items.filterMap BItem.source

/-- Both threads: the sender's history and queue, the receiver's checkpoint, and all writes to files
at the receiver, oldest first. -/
structure BSys where
  hist : Hist := {}
  cp : RcvCp := {}
  written : List (BlockDetails × Bytes) := []
  queue : List Source := []
deriving DecidableEq, Repr

/-- Outcome of a connection. -/
inductive BRes where
  | next (S : BSys)
  /-- the sender refuses the checkpoint and its thread ends (SenderThread.cpp:195-199) -/
  | refused (S : BSys)
  /-- this cannot happen: the sources are not those in the queue, or the connection did not
  break -/
  | blocked
deriving DecidableEq, Repr

/-- A write to a file. -/
def RObs.write : RObs → Option (BlockDetails × Bytes)
  | .block b d _ => some (b, d)
  | _ => none

/-- The bytes of a connection (`sendStream`). -/
def BTry.stream (c : BCfg) (t : BTry) : Except Fault Bytes :=
  sendStream c.ver c.hver c.crc c.st t.hbuf t.status t.numBlocks t.total (t.items.map (BItem.sent c.src)) t.buf

/-- What a receiver thread makes of some bytes of it (`receive`). -/
def BTry.receive (c : BCfg) (t : BTry) (bytes : Bytes) : Except Fault (List RObs × ROut) :=
  Wdt.receive t.frag c.crc c.st.transferId (t.items.length + 2) (.fresh t.rbuf bytes c.rver t.footer0)

/-- A connection that breaks.  Every source the sender took is added to its history
(SenderThread.cpp:298-309), also one it could not send completely; on the next connection it
reads the receiver's checkpoint and gives back what was not received
(SenderThread.cpp:151-206). -/
def bBreak (c : BCfg) (S : BSys) (t : BTry) : Except Fault BRes :=
  if ¬ (t.sources ++ t.rest).Perm S.queue then .ok .blocked else
  match t.stream c with
  | .error e => .error e
  | .ok stream =>
    if stream.length ≤ t.arrive then .ok .blocked else
    match t.receive c (stream.take t.arrive) with
    | .error e => .error e
    | .ok (obs, .reconnect _) =>
      let cp := obs.foldl (RcvCp.step c.st.enableChecksum) S.cp
      let h := t.sources.foldl (fun h s => (addSource h s).1) S.hist
      let S' : BSys := ⟨h, cp, S.written ++ obs.filterMap RObs.write, t.rest⟩
      match setCheckpoint h cp.msg false with
      | .error e => .error e
      | .ok (.invalid, _, _) => .ok (.refused S')
      | .ok (_, h', l) => .ok (.next { S' with hist := h', queue := t.rest ++ l.map Prod.snd })
    | .ok _ => .error .check

/-- Any number of them. -/
def bRun (c : BCfg) : BSys → List BTry → Except Fault BRes
  | S, [] => .ok (.next S)
  | S, t :: ts =>
    match bBreak c S t with
    | .error e => .error e
    | .ok (.next S') => bRun c S' ts
    | .ok r => .ok r

/-- A connection that does not break, on which all that is in the queue is sent; the sender takes
everything as acknowledged when it reads DONE (SenderThread.cpp:759-769). -/
def bGood (c : BCfg) (S : BSys) (t : BTry) : Except Fault BRes :=
  if ¬ (t.sources.Perm S.queue) then .ok .blocked else
  match t.stream c with
  | .error e => .error e
  | .ok stream =>
    match t.receive c stream with
    | .error e => .error e
    | .ok (obs, .done _ _ _) =>
      .ok (.next ⟨markAll (t.sources.foldl (fun h s => (addSource h s).1) S.hist),
        obs.foldl (RcvCp.step c.st.enableChecksum) S.cp, S.written ++ obs.filterMap RObs.write, []⟩)
    | .ok _ => .error .check

end Wdt
