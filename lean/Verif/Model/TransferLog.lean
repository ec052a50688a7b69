import Verif.Model.Chunks
import Verif.Model.ErrorCode
/-
Model of the transfer log: entries (/repo/util/TransferLogManager.cpp:38-238), parser
(:696-1119) and compaction (:612-693).
-/
namespace Wdt

/-- `kMaxEntryLength` (TransferLogManager.h:128) with `PATH_MAX` = 4096. -/
def kMaxEntryLength : Nat := 2 + 1 + 10 + 4096 + 2 * 10

/-- `WLOG_VERSION` (TransferLogManager.cpp:29) -/
def WLOG_VERSION : Int := 2

/-- Entries; the type numbers are those of `EntryType` (TransferLogManager.h:117-124).
`ts` is the time stamp. -/
inductive LogEntry where
  | header (ts version : Int) (recoveryId senderIp : Bytes) (config : Int)
  | fileCreation (ts : Int) (name : Bytes) (seqId fileSize : Int)
  | blockWrite (ts seqId offset blockSize : Int)
  | fileInvalidation (ts seqId : Int)
  | fileResize (ts seqId fileSize : Int)
  | dirInvalidation (ts : Int)
deriving DecidableEq, Repr

/-- Type byte (TransferLogManager.h:117-124). -/
def LogEntry.type : LogEntry → UInt8
  | .header .. => 0
  | .fileCreation .. => 1
  | .blockWrite .. => 2
  | .fileInvalidation .. => 3
  | .fileResize .. => 4
  | .dirInvalidation .. => 5

/-- Fields of an entry, in the order they are encoded (TransferLogManager.cpp:49-53,
88-91, 125-128, 161-163, 192-193, 219).  The header is encoded relative to `dest + 2`
with `max - 2`, which is the same as relative to `dest` with `max`. -/
def LogEntry.fields (max : Int) : LogEntry → Enc
  | .header ts v r s c =>
    (encodeVarI64C (toU64 max) ts).and <| (encodeVarI64C (toU64 max) v).and <| (encodeString max r).and <|
      (encodeString max s).and (encodeVarI64C (toU64 max) c)
  | .fileCreation ts n i s =>
    (encodeVarI64C (toU64 max) ts).and <| (encodeString max n).and <| (encodeVarI64C (toU64 max) i).and
      (encodeVarI64C (toU64 max) s)
  | .blockWrite ts i o s =>
    (encodeVarI64C (toU64 max) ts).and <| (encodeVarI64C (toU64 max) i).and <|
      (encodeVarI64C (toU64 max) o).and (encodeVarI64C (toU64 max) s)
  | .fileInvalidation ts i => (encodeVarI64C (toU64 max) ts).and (encodeVarI64C (toU64 max) i)
  | .fileResize ts i s =>
    (encodeVarI64C (toU64 max) ts).and <| (encodeVarI64C (toU64 max) i).and (encodeVarI64C (toU64 max) s)
  | .dirInvalidation ts => encodeVarI64C (toU64 max) ts

/-- `encodeLogHeader`, `encodeFileCreationEntry`, ... (TransferLogManager.cpp:38-218): the
returned size (-1: failure) and the array.  The length is stored as `int16_t` in the
machine's byte order, taken to be little-endian (TransferLogManager.cpp:59, 98). -/
def LogEntry.encode (max : Int) (e : LogEntry) (dest : Bytes) : Except Fault (Int × Bytes) :=
  if max < 3 then .error .check
  else match storeByte dest 2 e.type with
    | .error f => .error f
    | .ok d1 => match e.fields max d1 3 with
      | .error f => .error f
      | .ok (false, d2, _) => .ok (-1, d2)
      | .ok (true, d2, size) => match storeBytes d2 0 (leBytes 2 (size - 2)) with
        | .error f => .error f
        | .ok d3 => .ok (size, d3)

/-- What `add...Entry` appends to `entries_` (TransferLogManager.cpp:495-548):
`std::string(buf, size)`, which throws for `size = -1` (modelled as a failed check: the
process ends). -/
@[irreducible] def LogEntry.record (e : LogEntry) : Except Fault Bytes :=
  match e.encode kMaxEntryLength (List.replicate kMaxEntryLength 0) with
  | .error f => .error f
  | .ok (size, d) => if size < 0 then .error .check else .ok (d.take size.toNat)

/-- `ok && br.size() == 0` (TransferLogManager.cpp:73, 110, ...): everything must be
consumed. -/
def decodeAll {α : Type} (d : Dec α) (br : Bytes) : Option α :=
  match d br with
  | (some a, []) => some a
  | _ => none

/-- `decodeLogHeader`, `decodeFileCreationEntry`, ... (TransferLogManager.cpp:62-238);
`none` also for an unknown type (:1091-1093). -/
def decodeEntry (ty : UInt8) (body : Bytes) : Option LogEntry :=
  if ty = 0 then decodeAll (decodeInt64C.bind fun ts => decodeInt32C.bind fun v => decodeString.bind fun r =>
    decodeString.bind fun s => decodeInt64C.bind fun c => Dec.pure (.header ts v r s c)) body
  else if ty = 1 then decodeAll (decodeInt64C.bind fun ts => decodeString.bind fun n => decodeInt64C.bind fun i =>
    decodeInt64C.bind fun s => Dec.pure (.fileCreation ts n i s)) body
  else if ty = 2 then decodeAll (decodeInt64C.bind fun ts => decodeInt64C.bind fun i => decodeInt64C.bind fun o =>
    decodeInt64C.bind fun s => Dec.pure (.blockWrite ts i o s)) body
  else if ty = 3 then decodeAll (decodeInt64C.bind fun ts => decodeInt64C.bind fun i =>
    Dec.pure (.fileInvalidation ts i)) body
  else if ty = 4 then decodeAll (decodeInt64C.bind fun ts => decodeInt64C.bind fun i => decodeInt64C.bind fun s =>
    Dec.pure (.fileResize ts i s)) body
  else if ty = 5 then decodeAll (decodeInt64C.bind fun ts => Dec.pure (.dirInvalidation ts)) body
  else none

/-! ### Parser -/

/-- What the parser depends on: current recovery id and configuration, `parseOnly`, two
options, and the file system: `disk n` is the size `stat` reports for the file with
relative name `n` (`none`: `stat` fails), and whether truncating and appending to the log
succeed.  `now` is the clock. -/
structure LogEnv where
  recoveryId : Bytes
  config : Int
  parseOnly : Bool := false
  dirTree : Bool := false
  prealloc : Bool := true
  disk : Bytes → Option Int
  truncateOk : Bool := true
  appendOk : Bool := true
  now : Int := 0

/-- Parser state (TransferLogManager.h:364-381) plus the loop variable `status`.  The maps
are lists; `fileInfoMap_` and `invalidSeqIds_` are kept in ascending order, as `std::map`
and `std::set` iterate. -/
structure LP where
  headerParsed : Bool := false
  infos : List FileChunksInfo := []
  sizes : List (Int × Int) := []
  invalid : List Int := []
  senderIp : Bytes := []
  status : ErrCode := eOK
deriving DecidableEq, Repr

/-- `fileInfoMap_.find` -/
def LP.find (st : LP) (i : Int) : Option FileChunksInfo := st.infos.find? fun x => x.seqId == i

/-- `seqIdToSizeMap_.find` -/
def LP.sizeOf (st : LP) (i : Int) : Option Int := (st.sizes.find? fun x => x.1 == i).map (·.2)

/-- `fileInfoMap_.emplace` of an absent key. -/
def insInfo (x : FileChunksInfo) : List FileChunksInfo → List FileChunksInfo
  | [] => [x]
  | y :: l => if x.seqId < y.seqId then x :: y :: l else y :: insInfo x l

/-- `invalidSeqIds_.insert` of an absent key. -/
def insId (x : Int) : List Int → List Int
  | [] => [x]
  | y :: l => if x < y then x :: y :: l else y :: insId x l

/-- `processHeaderEntry` (TransferLogManager.cpp:767-812). -/
def LP.onHeader (env : LogEnv) (st : LP) (v : Int) (r s : Bytes) (c : Int) : LP :=
  if v ≠ WLOG_VERSION then { st with senderIp := s, status := eINVALID_LOG }
  else if s = [] then { st with senderIp := s, status := eINVALID_LOG }
  else if env.parseOnly then { st with senderIp := s, headerParsed := true, status := eOK }
  else if env.recoveryId ≠ r then { st with senderIp := s, status := eINCONSISTENT_DIRECTORY }
  else if env.config ≠ c then { st with senderIp := s, status := eINCONSISTENT_DIRECTORY }
  else { st with senderIp := s, headerParsed := true, status := eOK }

/-- `processFileCreationEntry` (TransferLogManager.cpp:814-869); `emplace` into
`seqIdToSizeMap_` keeps an existing value. -/
def LP.onCreation (env : LogEnv) (st : LP) (n : Bytes) (i size : Int) : LP :=
  if !st.headerParsed then { st with status := eINVALID_LOG }
  else if env.parseOnly then { st with status := eOK }
  else if env.dirTree then { st with status := eINVALID_LOG }
  else if (st.find i).isSome || st.invalid.contains i then { st with status := eINVALID_LOG }
  else match env.disk n with
    | none => { st with invalid := insId i st.invalid, status := eOK }
    | some d =>
      if env.prealloc && decide (d < size) then { st with invalid := insId i st.invalid, status := eOK }
      else { st with
        infos := insInfo ⟨i, n, d, []⟩ st.infos
        sizes := if (st.sizeOf i).isSome then st.sizes else st.sizes ++ [(i, size)]
        status := eOK }

/-- `processFileResizeEntry` (TransferLogManager.cpp:871-919). -/
def LP.onResize (env : LogEnv) (st : LP) (i size : Int) : Except Fault LP :=
  if !st.headerParsed then .ok { st with status := eINVALID_LOG }
  else if env.parseOnly then .ok { st with status := eOK }
  else if env.dirTree then .ok { st with status := eINVALID_LOG }
  else match st.find i with
    | none => .ok { st with status := eINVALID_LOG }
    | some info => match st.sizeOf i with
      | none => .error .check
      | some old =>
        if size < old then .ok { st with status := eINVALID_LOG }
        else if env.prealloc && decide (size > info.fileSize) then .ok { st with status := eINVALID_LOG }
        else .ok { st with
          sizes := st.sizes.map fun x => if x.1 = i then (i, size) else x
          status := eOK }

/-- `addChunk` on the file with this id (Protocol.cpp:70-72). -/
def addChunk (i : Int) (c : Interval) (l : List FileChunksInfo) : List FileChunksInfo :=
  l.map fun x => if x.seqId = i then { x with chunks := x.chunks ++ [c] } else x

/-- `processBlockWriteEntry` (TransferLogManager.cpp:921-966).  `offset + blockSize`
overflowing `int64_t` is undefined behaviour. -/
def LP.onBlock (env : LogEnv) (st : LP) (i off size : Int) : Except Fault LP :=
  if !st.headerParsed then .ok { st with status := eINVALID_LOG }
  else if env.parseOnly then .ok { st with status := eOK }
  else if env.dirTree then .ok { st with status := eINVALID_LOG }
  else if st.invalid.contains i then .ok { st with status := eOK }
  else match st.find i with
    | none => .ok { st with status := eINVALID_LOG }
    | some info =>
      if off + size > int64Max then .error .ub
      else if off + size > info.fileSize then .ok { st with status := eINVALID_LOG }
      else match mkInterval off (off + size) with
        | .error f => .error f
        | .ok c => .ok { st with infos := addChunk i c st.infos, status := eOK }

/-- `processFileInvalidationEntry` (TransferLogManager.cpp:968-998); note that
`seqIdToSizeMap_` is not touched. -/
def LP.onInvalidation (env : LogEnv) (st : LP) (i : Int) : LP :=
  if !st.headerParsed then { st with status := eINVALID_LOG }
  else if env.parseOnly then { st with status := eOK }
  else if env.dirTree then { st with status := eINVALID_LOG }
  else if (st.find i).isNone && !st.invalid.contains i then { st with status := eINVALID_LOG }
  else { st with
    infos := st.infos.filter fun x => x.seqId ≠ i
    invalid := st.invalid.filter fun x => x ≠ i
    status := eOK }

/-- `processDirectoryInvalidationEntry` (TransferLogManager.cpp:1000-1013). -/
def LP.onDirInvalidation (env : LogEnv) (st : LP) : LP :=
  if env.parseOnly then { st with status := eOK }
  else { st with headerParsed := false, status := eINCONSISTENT_DIRECTORY }

/-- The `switch` (TransferLogManager.cpp:1072-1090). -/
def LP.process (env : LogEnv) (st : LP) : LogEntry → Except Fault LP
  | .header _ v r s c => .ok (st.onHeader env v r s c)
  | .fileCreation _ n i s => .ok (st.onCreation env n i s)
  | .blockWrite _ i o s => st.onBlock env i o s
  | .fileInvalidation _ i => .ok (st.onInvalidation env i)
  | .fileResize _ i s => st.onResize env i s
  | .dirInvalidation _ => .ok (st.onDirInvalidation env)

/-- `clearParsedData` when the directory is inconsistent (TransferLogManager.cpp:1098-1100,
744-748). -/
def LP.settle (st : LP) : LP :=
  if st.status = eINCONSISTENT_DIRECTORY then { st with infos := [], sizes := [], invalid := [] } else st

/-- One entry of the log, without its length (TransferLogManager.cpp:1061-1100). -/
def LP.step (env : LogEnv) (st : LP) : Bytes → Except Fault LP
  | [] => .error .ub
  | ty :: body =>
    if st.status = eINCONSISTENT_DIRECTORY ∧ ty ≠ 0 then .ok st
    else match decodeEntry ty body with
      | none => .ok { st with status := eINVALID_LOG }
      | some e => match st.process env e with
        | .error f => .error f
        | .ok st' => .ok st'.settle

/-- Result of the reading loop: state, and number of bytes to cut off at the end. -/
abbrev LoopOut := LP × Nat

/-- The reading loop (TransferLogManager.cpp:1020-1101); `fuel` bounds the number of
iterations, the caller passes more than there can be.  Read errors are not modelled. -/
def parseLoop (env : LogEnv) : Nat → LP → Bytes → Except Fault LoopOut
  | 0, _, _ => .error .hang
  | fuel + 1, st, log =>
    if log.length = 0 then .ok (st, 0)
    else if log.length < 2 then .ok (st, log.length)
    else
      let n := leNat (log.take 2)
      if n = 0 ∨ n ≥ 32768 ∨ n > kMaxEntryLength then .ok ({ st with status := eINVALID_LOG }, 0)
      else if (log.drop 2).length < n then .ok (st, log.length)
      else match st.step env ((log.drop 2).take n) with
        | .error f => .error f
        | .ok st' =>
          if st'.status = eINVALID_LOG then .ok (st', 0)
          else parseLoop env fuel st' (log.drop (2 + n))

/-- Outcome of `parseLog`: status, chunk list, log content afterwards, sender address. -/
structure ParseOut where
  status : ErrCode
  infos : List FileChunksInfo := []
  log : Bytes
  senderIp : Bytes
deriving DecidableEq, Repr

/-- `writeFileInvalidationEntries` (TransferLogManager.cpp:706-721): the bytes appended. -/
def invalidationBytes (now : Int) : List Int → Except Fault Bytes
  | [] => .ok []
  | i :: l => match LogEntry.record (.fileInvalidation now i) with
    | .error f => .error f
    | .ok a => match invalidationBytes now l with
      | .error f => .error f
      | .ok b => .ok (a ++ b)

/-- `LogParser::parseLog` (TransferLogManager.cpp:1015-1119) with
`truncateExtraBytesAtEnd` (:723-742).  When appending fails the content of the log is
taken to be unchanged. -/
def parseLog (env : LogEnv) (senderIp : Bytes) (log : Bytes) : Except Fault ParseOut :=
  match parseLoop env (log.length + 1) { senderIp := senderIp } log with
  | .error f => .error f
  | .ok (st, extra) =>
    if st.status = eINVALID_LOG then .ok { status := eINVALID_LOG, log := log, senderIp := st.senderIp }
    else if extra ≠ 0 ∧ !env.parseOnly ∧ !env.truncateOk then
      .ok { status := eINVALID_LOG, log := log, senderIp := st.senderIp }
    else
      let log1 := if env.parseOnly then log else log.take (log.length - extra)
      if st.status ≠ eOK then .ok { status := st.status, log := log1, senderIp := st.senderIp }
      else
        let infos := st.infos.map fun x => { x with chunks := mergeChunks x.chunks }
        if st.invalid = [] then .ok { status := eOK, infos := infos, log := log1, senderIp := st.senderIp }
        else if !env.appendOk then
          .ok { status := eINVALID_LOG, infos := infos, log := log1, senderIp := st.senderIp }
        else match invalidationBytes env.now st.invalid with
          | .error f => .error f
          | .ok bs => .ok { status := eOK, infos := infos, log := log1 ++ bs, senderIp := st.senderIp }

/-! ### Compaction -/

/-- Entries written for one file (TransferLogManager.cpp:668-674). -/
def compactEntries (now : Int) (x : FileChunksInfo) : List LogEntry :=
  [.fileCreation now x.fileName x.seqId x.fileSize, .blockWrite now x.seqId 0 x.fileSize]

/-- Concatenation of records. -/
def records : List LogEntry → Except Fault Bytes
  | [] => .ok []
  | e :: l => match e.record with
    | .error f => .error f
    | .ok a => match records l with
      | .error f => .error f
      | .ok b => .ok (a ++ b)

/-- `compactLog` (TransferLogManager.cpp:612-693): content of the log and sender address
afterwards.  `none` as first component: compaction was refused and the log is as the
parser left it (second component).  The invalidation entry that `parseAndMatch` adds for
an inconsistent directory (:603-606) is not modelled: in that case nothing is compacted.
Failing writes are not modelled. -/
def compactLog (env : LogEnv) (senderIp log : Bytes) : Except Fault (Option Bytes × ParseOut) :=
  match parseLog env senderIp log with
  | .error f => .error f
  | .ok out =>
    if out.status ≠ eOK then .ok (none, out)
    else if out.infos.all fun x => x.chunks.length == 1 && totalChunkSize x.chunks == x.fileSize then
      match records (.header env.now WLOG_VERSION env.recoveryId out.senderIp env.config ::
          out.infos.flatMap (compactEntries env.now)) with
      | .error f => .error f
      | .ok b => .ok (some b, out)
    else .ok (none, out)

end Wdt
