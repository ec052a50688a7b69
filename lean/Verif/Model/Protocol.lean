import Verif.Model.Serial
/-
Model of /repo/Protocol.{h,cpp}: message structures and their encoders/decoders.

Out-parameters of a failed decoder are not modelled (callers in the code
abandon the connection); the offset after a failed decoder is.
-/
namespace Wdt

/-! ### Constants (Protocol.h:276-330, Protocol.cpp:18-33) -/

/-- Protocol.cpp:24 -/
def SETTINGS_FLAG_VERSION : Int := 12
/-- Protocol.cpp:25 -/
def HEADER_FLAG_AND_PREV_SEQ_ID_VERSION : Int := 13
/-- Protocol.cpp:26 -/
def CHECKPOINT_OFFSET_VERSION : Int := 16
/-- Protocol.cpp:27 -/
def CHECKPOINT_SEQ_ID_VERSION : Int := 21
/-- Protocol.cpp:31 -/
def VARINT_CHANGE : Int := 27
/-- Protocol.h:301 -/
def kMaxTransferIdLength : Int := 1024
/-- <limits.h> PATH_MAX on Linux, used at Protocol.h:305. -/
def PATH_MAX : Int := 4096
/-- Protocol.h:305 -/
def kMaxHeader : Int := 1 + 2 + PATH_MAX + 4 * 10 + 1 + 10
/-- Protocol.h:307 -/
def kMinBufLength : Int := 256
/-- Protocol.h:310 -/
def kMaxDone : Int := 2 + 2 * 10
/-- Protocol.h:312 -/
def kMaxSize : Int := 1 + 10
/-- Protocol.h:314 -/
def kMaxSettings : Int := 1 + 3 * 10 + kMaxTransferIdLength + 1
/-- Protocol.h:316 -/
def kMaxFooter : Int := 1 + 10
/-- Protocol.h:319 -/
def kChunksCmdLen : Int := 2 * 8
/-- Protocol.h:321 -/
def kMaxChunkEncodeLen : Int := 20
/-- Protocol.h:324 -/
def kAbortLength : Int := 4 + 1 + 8
/-- Protocol.h:326 -/
def kMaxVersion : Int := 10
/-- Protocol.h:329-330, kAESBlockSize = 16 (util/EncryptionUtils.h:31). -/
def kEncryptionCmdLen : Int := 1 + 1 + 1 + 16 + 4

/-- FileAllocationStatus (Protocol.h:196-202) as its numeric value.  A decoded
status may be any of 0..7 (`flags & 7`, Protocol.cpp:187). -/
abbrev AllocStatus := Nat
/-- Protocol.h:197 -/
def NOT_EXISTS : AllocStatus := 0
/-- Protocol.h:198 -/
def EXISTS_CORRECT_SIZE : AllocStatus := 1
/-- Protocol.h:199 -/
def EXISTS_TOO_LARGE : AllocStatus := 2
/-- Protocol.h:200 -/
def EXISTS_TOO_SMALL : AllocStatus := 3
/-- Protocol.h:201 -/
def TO_BE_DELETED : AllocStatus := 4

/-! ### Structures -/

/-- Protocol.h:35-75 -/
structure Checkpoint where
  port : Int := 0
  numBlocks : Int := 0
  lastBlockSeqId : Int := 0
  lastBlockOffset : Int := 0
  lastBlockReceivedBytes : Int := 0
  hasSeqId : Bool := false
deriving DecidableEq, Repr

/-- Protocol.h:55-57 -/
def Checkpoint.hasPartialBlockInfo (c : Checkpoint) : Bool :=
  c.hasSeqId && decide (c.lastBlockSeqId ≥ 0) && decide (c.lastBlockReceivedBytes > 0)

/-- Protocol.h:80-105 -/
structure Interval where
  start : Int := 0
  stop : Int := 0
deriving DecidableEq, Repr

/-- Protocol.h:108-193 -/
structure FileChunksInfo where
  seqId : Int := 0
  fileName : Bytes := []
  fileSize : Int := 0
  chunks : List Interval := []
deriving DecidableEq, Repr

/-- Protocol.h:205-220 -/
structure BlockDetails where
  fileName : Bytes := []
  seqId : Int := 0
  fileSize : Int := 0
  offset : Int := 0
  dataSize : Int := 0
  allocationStatus : AllocStatus := NOT_EXISTS
  prevSeqId : Int := 0
deriving DecidableEq, Repr

/-- Protocol.h:223-238 -/
structure Settings where
  readTimeoutMillis : Int := 0
  writeTimeoutMillis : Int := 0
  transferId : Bytes := []
  enableChecksum : Bool := false
  sendFileChunks : Bool := false
  blockModeDisabled : Bool := false
  enableHeartBeat : Bool := false
deriving DecidableEq, Repr

/-! ### Negotiation -/

/-- `Protocol::negotiateProtocol` (Protocol.cpp:44-51). -/
def negotiateProtocol (requested cur : Int) : Int :=
  if requested < 10 then 0 else min cur requested

/-- `getMaxLocalCheckpointLength` (Protocol.cpp:121-137). -/
def getMaxLocalCheckpointLength (ver : Int) : Int :=
  10 + 2 * 10 + (if ver ≥ CHECKPOINT_OFFSET_VERSION then 10 else 0) +
    (if ver ≥ CHECKPOINT_SEQ_ID_VERSION then 2 * 10 else 0)

/-! ### Range plumbing of the decoders -/

/-- `ByteRange br = makeByteRange(src, max, off); ... off += offset(br, obr);`
(e.g. Protocol.cpp:279-286). -/
def withRange {α : Type} (d : Dec α) (src : Bytes) (off max : Int) :
    Except Fault (Option α × Int) :=
  match makeByteRange src max off with
  | .error f => .error f
  | .ok br => .ok ((d br).1, off + ((br.length : Int) - (d br).2.length))

/-- Sequence of encoders over a list, stopping at the first failure
(Protocol.cpp:204-217, 375-379). -/
def Enc.all {α : Type} (f : α → Enc) : List α → Enc
  | [] => Enc.skip
  | a :: as => (f a).and (Enc.all f as)

/-- `if (c) e` inside an `ok &&` chain. -/
def Enc.when (c : Prop) [Decidable c] (e : Enc) : Enc := if c then e else Enc.skip

/-- Guard at Protocol.cpp:142, 201: `WDT_CHECK_GE(max, 0)`. -/
def Enc.checkMax (max : Int) (e : Enc) : Enc := fun buf off =>
  if max < 0 then .error .check else e buf off

/-! ### Header -/

/-- `encodeHeader` (Protocol.cpp:139-166). -/
def encodeHeader (ver max : Int) (b : BlockDetails) : Enc :=
  Enc.checkMax max <|
  (encodeString max b.fileName).and <|
  (encodeVarI64C (toU64 max) b.seqId).and <|
  (encodeVarI64C (toU64 max) b.dataSize).and <|
  (encodeVarI64C (toU64 max) b.offset).and <|
  (encodeVarI64C (toU64 max) b.fileSize).and <|
  Enc.when (ver ≥ HEADER_FLAG_AND_PREV_SEQ_ID_VERSION) <|
    (encodeByteChecked max (UInt8.ofNat b.allocationStatus)).and <|
    Enc.when (b.allocationStatus = EXISTS_TOO_SMALL ∨ b.allocationStatus = EXISTS_TOO_LARGE) <|
      encodeVarI64C (toU64 max) b.prevSeqId

/-- The `decodeString && decodeInt64C && ...` part of `decodeHeader`
(Protocol.cpp:174-178); `b` is the caller's struct before the call. -/
def decodeHeaderFixed (b : BlockDetails) : Dec BlockDetails :=
  decodeString.bind fun fileName =>
  decodeInt64C.bind fun seqId =>
  decodeInt64C.bind fun dataSize =>
  decodeInt64C.bind fun offset =>
  decodeInt64C.bind fun fileSize =>
  Dec.pure { b with fileName, seqId, dataSize, offset, fileSize }

/-- The flags part of `decodeHeader` (Protocol.cpp:185-192), after the test for
an empty range. -/
def decodeHeaderFlags (b : BlockDetails) : Dec BlockDetails :=
  decodeByte.bind fun flags =>
  if flags.toNat &&& 7 = EXISTS_TOO_SMALL ∨ flags.toNat &&& 7 = EXISTS_TOO_LARGE then
    decodeInt64C.bind fun prevSeqId =>
    Dec.pure { b with allocationStatus := flags.toNat &&& 7, prevSeqId }
  else Dec.pure { b with allocationStatus := flags.toNat &&& 7 }

/-- `decodeHeader` (Protocol.cpp:168-196).  When the range is exhausted before
the flags byte the function returns without moving `off` (line 183). -/
def decodeHeader (ver : Int) (b0 : BlockDetails) (src : Bytes) (off max : Int) :
    Except Fault (Option BlockDetails × Int) :=
  match makeByteRange src max off with
  | .error f => .error f
  | .ok br =>
    match decodeHeaderFixed b0 br with
    | (none, br') => .ok (none, off + ((br.length : Int) - br'.length))
    | (some b, br') =>
      if ver ≥ HEADER_FLAG_AND_PREV_SEQ_ID_VERSION then
        if br' = [] then .ok (none, off)
        else .ok ((decodeHeaderFlags b br').1,
              off + ((br.length : Int) - (decodeHeaderFlags b br').2.length))
      else .ok (some b, off + ((br.length : Int) - br'.length))

/-! ### Checkpoints -/

/-- Body of the loop in `encodeCheckpoints` (Protocol.cpp:208-216). -/
def encodeCheckpoint (ver max : Int) (c : Checkpoint) : Enc :=
  (encodeVarI64C (toU64 max) c.port).and <|
  (encodeVarI64C (toU64 max) c.numBlocks).and <|
  (Enc.when (ver ≥ CHECKPOINT_OFFSET_VERSION)
    (encodeVarI64C (toU64 max) c.lastBlockReceivedBytes)).and <|
  Enc.when (ver ≥ CHECKPOINT_SEQ_ID_VERSION) <|
    (encodeVarI64C (toU64 max) c.lastBlockSeqId).and
    (encodeVarI64C (toU64 max) c.lastBlockOffset)

/-- `encodeCheckpoints` (Protocol.cpp:198-222). -/
def encodeCheckpoints (ver max : Int) (cs : List Checkpoint) : Enc :=
  Enc.checkMax max <|
  (encodeVarU64 (toU64 max) cs.length).and (Enc.all (encodeCheckpoint ver max) cs)

/-- Seq-id part of `decodeCheckpoints` (Protocol.cpp:239-258). -/
def decodeCheckpointSeqId (ver : Int) (c : Checkpoint) : Dec Checkpoint :=
  decodeUInt64.bind fun uv => fun br =>
    if ver < VARINT_CHANGE ∧ uv = 18446744073709551615 then
      match br with
      | [] => (decodeInt64C.bind fun o => Dec.pure
                { c with lastBlockSeqId := toI64 uv, lastBlockOffset := o, hasSeqId := true }) br
      | b :: br' =>
        if b ≠ 1 then (none, br')
        else (decodeInt64C.bind fun o => Dec.pure
                { c with lastBlockSeqId := -1, lastBlockOffset := o, hasSeqId := true }) br'
    else (decodeInt64C.bind fun o => Dec.pure
                { c with lastBlockSeqId := toI64 uv, lastBlockOffset := o, hasSeqId := true }) br

/-- Body of the loop in `decodeCheckpoints` (Protocol.cpp:232-262). -/
def decodeCheckpoint (ver : Int) : Dec Checkpoint :=
  decodeInt32C.bind fun port =>
  decodeInt64C.bind fun numBlocks =>
  (if ver ≥ CHECKPOINT_OFFSET_VERSION then
    decodeInt64C.bind fun r =>
      Dec.pure ({ port, numBlocks, lastBlockReceivedBytes := r } : Checkpoint)
   else Dec.pure ({ port, numBlocks } : Checkpoint)).bind fun c =>
  if ver ≥ CHECKPOINT_SEQ_ID_VERSION then decodeCheckpointSeqId ver c else Dec.pure c

/-- `for (i = 0; ok && i < len; i++)` (Protocol.cpp:231-263, 399-405). -/
def Dec.times {α : Type} (d : Dec α) : Nat → Dec (List α)
  | 0 => Dec.pure []
  | n + 1 => d.bind fun a => (Dec.times d n).bind fun as => Dec.pure (a :: as)

/-- `decodeCheckpoints` (Protocol.cpp:224-266) starting from an empty vector. -/
def decodeCheckpoints (ver : Int) (src : Bytes) (off max : Int) :
    Except Fault (Option (List Checkpoint) × Int) :=
  withRange (decodeUInt64.bind fun len => Dec.times (decodeCheckpoint ver) len) src off max

/-! ### Done, Size, Abort, ChunksCmd, Footer, EncryptionSettings -/

/-- `encodeDone` (Protocol.cpp:268-275). -/
def encodeDone (ver max numBlocks bytesSent : Int) : Enc :=
  (encodeVarI64C (toU64 max) numBlocks).and <|
  Enc.when (ver ≥ CHECKPOINT_OFFSET_VERSION) (encodeVarI64C (toU64 max) bytesSent)

/-- `decodeDone` (Protocol.cpp:277-287); second component is `none` when the
version does not carry it (the caller's variable keeps its value). -/
def decodeDone (ver : Int) (src : Bytes) (off max : Int) :
    Except Fault (Option (Int × Option Int) × Int) :=
  withRange (decodeInt64C.bind fun n =>
    if ver ≥ CHECKPOINT_OFFSET_VERSION then decodeInt64C.bind fun b => Dec.pure (n, some b)
    else Dec.pure (n, none)) src off max

/-- `encodeSize` (Protocol.cpp:289-292). -/
def encodeSize (max total : Int) : Enc := encodeVarI64C (toU64 max) total

/-- `decodeSize` (Protocol.cpp:294-301). -/
def decodeSize (src : Bytes) (off max : Int) : Except Fault (Option Int × Int) :=
  withRange decodeInt64C src off max

/-- `dest[off++] = b` without a bounds check (Protocol.cpp:315). -/
def storeByteEnc (b : UInt8) : Enc := fun buf off =>
  match storeByte buf off b with
  | .error f => .error f
  | .ok buf' => .ok (true, buf', off + 1)

/-- `encodeAbort` (Protocol.cpp:303-317); the error code is stored as one byte
without a separate bounds check. -/
def encodeAbort (max ver : Int) (errCode : Nat) (checkpoint : Int) : Enc := fun buf off =>
  if off + kAbortLength > max then .ok (false, buf, off)
  else ((encodeIntFixed 4 max ver).and <|
    (storeByteEnc (UInt8.ofNat errCode)).and <|
    encodeIntFixed 8 max checkpoint) buf off

/-- `decodeAbort` (Protocol.cpp:319-338): version, error code, checkpoint.  If
the version is negative `off` is not moved (line 331). -/
def decodeAbort (src : Bytes) (off max : Int) : Except Fault (Option (Int × Nat × Int) × Int) :=
  if off + kAbortLength > max then .ok (none, off)
  else match makeByteRange src max off with
    | .error f => .error f
    | .ok br => match decodeIntFixed 4 br with
      | (none, _) => .ok (none, off)
      | (some v, br1) => match br1 with
        | [] => .error .ub
        | e :: br2 => match decodeIntFixed 8 br2 with
          | (none, br3) => .ok (none, off + ((br.length : Int) - br3.length))
          | (some c, br3) => .ok (some (v, e.toNat, c), off + ((br.length : Int) - br3.length))

/-- `encodeChunksCmd` (Protocol.cpp:340-344). -/
def encodeChunksCmd (max bufSize numFiles : Int) : Enc :=
  (encodeIntFixed 8 max bufSize).and (encodeIntFixed 8 max numFiles)

/-- `decodeChunksCmd` (Protocol.cpp:346-354). -/
def decodeChunksCmd (src : Bytes) (off max : Int) : Except Fault (Option (Int × Int) × Int) :=
  withRange ((decodeIntFixed 8).bind fun a => (decodeIntFixed 8).bind fun b => Dec.pure (a, b))
    src off max

/-- `encodeFooter` (Protocol.cpp:549-552). -/
def encodeFooter (max checksum : Int) : Enc := encodeVarI64 (toU64 max) checksum

/-- `decodeFooter` (Protocol.cpp:554-561). -/
def decodeFooter (src : Bytes) (off max : Int) : Except Fault (Option Int × Int) :=
  withRange decodeInt32 src off max

/-- `encodeEncryptionSettings` (Protocol.cpp:524-531). -/
def encodeEncryptionSettings (max encType : Int) (iv : Bytes) (tagInterval : Int) : Enc :=
  (encodeVarI64C (toU64 max) encType).and <|
  (encodeString max iv).and <| encodeIntFixed 4 max tagInterval

/-- `decodeEncryptionSettings` (Protocol.cpp:534-547); the encryption type is
whatever number was sent (line 543 casts without a range check). -/
def decodeEncryptionSettings (src : Bytes) (off max : Int) :
    Except Fault (Option (Int × Bytes × Int) × Int) :=
  withRange (decodeInt64C.bind fun v => decodeString.bind fun iv =>
    (decodeIntFixed 4).bind fun t => Dec.pure (v, iv, t)) src off max

/-! ### Settings -/

/-- The flags byte (Protocol.cpp:462-474). -/
def settingsFlags (s : Settings) : Nat :=
  (if s.enableChecksum then 1 else 0) ||| (if s.sendFileChunks then 1 <<< 1 else 0) |||
  (if s.blockModeDisabled then 1 <<< 2 else 0) ||| (if s.enableHeartBeat then 1 <<< 3 else 0)

/-- `encodeSettings` (Protocol.cpp:454-481). -/
def encodeSettings (ver max : Int) (s : Settings) : Enc :=
  (encodeVarI64C (toU64 max) ver).and <|
  (encodeVarI64C (toU64 max) s.readTimeoutMillis).and <|
  (encodeVarI64C (toU64 max) s.writeTimeoutMillis).and <|
  (encodeString max s.transferId).and <|
  Enc.when (ver ≥ SETTINGS_FLAG_VERSION) (encodeByteChecked max (UInt8.ofNat (settingsFlags s)))

/-- `decodeVersion` (Protocol.cpp:483-490). -/
def decodeVersion (src : Bytes) (off max : Int) : Except Fault (Option Int × Int) :=
  withRange decodeInt32C src off max

/-- The `decodeInt32C && decodeInt32C && decodeString` part of `decodeSettings`
(Protocol.cpp:505-507). -/
def decodeSettingsFixed (s : Settings) : Dec Settings :=
  decodeInt32C.bind fun r => decodeInt32C.bind fun w => decodeString.bind fun t =>
  Dec.pure { s with readTimeoutMillis := r, writeTimeoutMillis := w, transferId := t }

/-- `decodeSettings` (Protocol.cpp:492-521); `s0` is the caller's struct. -/
def decodeSettings (ver : Int) (s0 : Settings) (src : Bytes) (off max : Int) :
    Except Fault (Option Settings × Int) :=
  if off < 0 then .ok (none, off)
  else if off ≥ max then .ok (none, off)
  else match makeByteRange src max off with
    | .error f => .error f
    | .ok br =>
      match decodeSettingsFixed { s0 with enableChecksum := false, sendFileChunks := false } br with
      | (none, br') => .ok (none, off + ((br.length : Int) - br'.length))
      | (some s, br') =>
        if ver ≥ SETTINGS_FLAG_VERSION then
          match br' with
          | [] => .ok (none, off)
          | flags :: br'' =>
            .ok (some { s with
                enableChecksum := decide (flags.toNat &&& 1 ≠ 0)
                sendFileChunks := decide (flags.toNat &&& (1 <<< 1) ≠ 0)
                blockModeDisabled := decide (flags.toNat &&& (1 <<< 2) ≠ 0)
                enableHeartBeat := decide (flags.toNat &&& (1 <<< 3) ≠ 0) },
              off + ((br.length : Int) - br''.length))
        else .ok (some s, off + ((br.length : Int) - br'.length))

/-! ### Chunk lists -/

/-- `encodeChunkInfo` (Protocol.cpp:356-360). -/
def encodeChunkInfo (max : Int) (c : Interval) : Enc :=
  (encodeVarI64C (toU64 max) c.start).and (encodeVarI64C (toU64 max) c.stop)

/-- `decodeChunkInfo` (Protocol.cpp:362-364); `stop >= start` is not checked. -/
def decodeChunkInfo : Dec Interval :=
  decodeInt64C.bind fun a => decodeInt64C.bind fun b => Dec.pure ⟨a, b⟩

/-- `encodeFileChunksInfo` (Protocol.cpp:366-381). -/
def encodeFileChunksInfo (max : Int) (f : FileChunksInfo) : Enc :=
  (encodeVarI64C (toU64 max) f.seqId).and <|
  (encodeString max f.fileName).and <|
  (encodeVarI64C (toU64 max) f.fileSize).and <|
  (encodeVarI64C (toU64 max) f.chunks.length).and <|
  Enc.all (encodeChunkInfo max) f.chunks

/-- `decodeFileChunksInfo` (Protocol.cpp:383-407).  The test `numChunks < 0` at
line 395 is unreachable because `decodeInt64C` only yields non-negative
numbers. -/
def decodeFileChunksInfo : Dec FileChunksInfo :=
  decodeInt64C.bind fun seqId => decodeString.bind fun fileName =>
  decodeInt64C.bind fun fileSize => decodeInt64C.bind fun numChunks =>
  if numChunks < 0 then Dec.fail
  else (Dec.times decodeChunkInfo numChunks.toNat).bind fun chunks =>
    Dec.pure { seqId, fileName, fileSize, chunks }

/-- `maxEncodeLen` (Protocol.cpp:409-412). -/
def maxEncodeLen (f : FileChunksInfo) : Int :=
  10 + 2 + f.fileName.length + 10 + 10 + f.chunks.length * kMaxChunkEncodeLen

/-- Loop of `encodeFileChunksInfoList` (Protocol.cpp:420-434) over the entries
from `startIndex` on; the result of `encodeFileChunksInfo` is ignored
(line 432).  Returns `numEncoded`. -/
def encodeListLoop (oldOff bufSize : Int) :
    List FileChunksInfo → Nat → Bytes → Int → Except Fault (Nat × Bytes × Int)
  | [], n, buf, off => .ok (n, buf, off)
  | f :: fs, n, buf, off =>
    if maxEncodeLen f + oldOff > bufSize then encodeListLoop oldOff bufSize fs n buf off
    else if maxEncodeLen f + off ≥ bufSize then .ok (n, buf, off)
    else match encodeFileChunksInfo bufSize f buf off with
      | .error e => .error e
      | .ok (_, buf', off') => encodeListLoop oldOff bufSize fs (n + 1) buf' off'

/-- `encodeFileChunksInfoList` (Protocol.cpp:414-436). -/
def encodeFileChunksInfoList (bufSize : Int) (startIndex : Nat) (l : List FileChunksInfo)
    (buf : Bytes) (off : Int) : Except Fault (Nat × Bytes × Int) :=
  encodeListLoop off bufSize (l.drop startIndex) 0 buf off

/-- `while (!br.empty())` of `decodeFileChunksInfoList` (Protocol.cpp:443-449).
`fuel` only makes the recursion structural; callers pass the range length and
every record consumes at least one byte. -/
def decodeListLoop : Nat → Bytes → Option (List FileChunksInfo)
  | _, [] => some []
  | 0, _ :: _ => none
  | fuel + 1, b :: br =>
    match decodeFileChunksInfo (b :: br) with
    | (none, _) => none
    | (some f, br') => (decodeListLoop fuel br').map (f :: ·)

/-- `decodeFileChunksInfoList` (Protocol.cpp:438-452) into an empty vector. -/
def decodeFileChunksInfoList (src : Bytes) (off dataSize : Int) :
    Except Fault (Option (List FileChunksInfo) × Int) :=
  match makeByteRange src dataSize off with
  | .error f => .error f
  | .ok br => match decodeListLoop br.length br with
    | none => .ok (none, off)
    | some l => .ok (some l, off + br.length)

end Wdt
