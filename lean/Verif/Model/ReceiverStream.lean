import Verif.Model.Negotiation
import Verif.Model.ErrorCode
/-
Model of the byte stream parser of a receiver thread
(/repo/ReceiverThread.cpp:30-79, 257-368, 390-735): the receive buffer, the two
read helpers and the four command handlers.

Simplified throughout: writing to disk succeeds (failures are the subject of
`Model/FileWriter.lean`), nobody aborts, heart beats and throttling are left
out, and a connection ends with end-of-file rather than with a read error (both
make the handlers take the same branch).  Transfer log and checkpoint updates
are in `Model/TransferLog.lean` and `Model/ThreadsController.lean`.
-/
namespace Wdt

/-! ### Command bytes (Protocol.h:276-295) -/

/-- Protocol.h:277 -/
def DONE_CMD : UInt8 := 0x44
/-- Protocol.h:278 -/
def FILE_CMD : UInt8 := 0x4C
/-- Protocol.h:281 -/
def SETTINGS_CMD : UInt8 := 0x53
/-- Protocol.h:285 -/
def SIZE_CMD : UInt8 := 0x5A
/-- Protocol.h:286 -/
def FOOTER_CMD : UInt8 := 0x46

/-! ### The network -/

/-- A connection as the receiver sees it: the bytes the sender wrote that were
not read yet, how many reads were done, and the sizes they asked for, latest
first. -/
structure RNet where
  rest : Bytes
  k : Nat := 0
  asked : List Int := []
deriving DecidableEq, Repr

/-- `IServerSocket::read(buf, n, /* tryFull */ false)` (util/WdtSocket.cpp:524-534,
310-371 without encryption): a read yields at most `frag l + 1` bytes, at least one
unless the stream is over or `n = 0`; `l` lists the sizes asked for so far, this one
first, so that the network may cut the stream depending on all that happened before. -/
def netRead (frag : List Int → Nat) (n : Int) (s : RNet) : Bytes × RNet :=
  (s.rest.take (min (frag (n :: s.asked) + 1) n.toNat),
    { rest := s.rest.drop (min (frag (n :: s.asked) + 1) n.toNat), k := s.k + 1, asked := n :: s.asked })

/-- Loop of `readAtLeast` (ReceiverThread.cpp:38-57) for a destination
`buf + base`.  `fuel` bounds the number of iterations; the caller passes one
more than the number of bytes left, which is never used up. -/
def readAtLeastLoop (frag : List Int → Nat) (base max atLeast : Int) :
    Nat → Bytes → Int → RNet → Except Fault (Bytes × Int × RNet)
  | 0, _, _, _ => .error .hang
  | fuel + 1, buf, len, net =>
    if len < atLeast then
      if (netRead frag (max - len) net).1 = [] then .ok (buf, len, (netRead frag (max - len) net).2)
      else match storeBytes buf (base + len) (netRead frag (max - len) net).1 with
        | .error f => .error f
        | .ok buf' => readAtLeastLoop frag base max atLeast fuel buf'
            (len + (netRead frag (max - len) net).1.length) (netRead frag (max - len) net).2
    else .ok (buf, len, net)

/-- `readAtLeast` (ReceiverThread.cpp:30-61): the array, the length and the
connection afterwards. -/
def readAtLeast (frag : List Int → Nat) (base max atLeast : Int) (buf : Bytes) (len : Int) (net : RNet) :
    Except Fault (Bytes × Int × RNet) :=
  if len < 0 then .error .check
  else if atLeast ≤ 0 then .error .check
  else if atLeast > max then .error .check
  else readAtLeastLoop frag base max atLeast (net.rest.length + 1) buf len net

/-! ### Receiver thread -/

/-- The part of a receiver thread's state that parsing uses
(ReceiverThread.h:268-330): `buf_`, `off_`, `numRead_`, the connection,
`threadProtocolVersion_` and `footerType_ == CHECKSUM_FOOTER`. -/
structure RcvConn where
  buf : Bytes
  off : Int := 0
  numRead : Int := 0
  net : RNet
  ver : Int
  footer : Bool := false
deriving DecidableEq, Repr

/-- What a receiver thread does with the outside world while it parses. -/
inductive RObs where
  /-- settings accepted -/
  | settings (s : Settings)
  /-- total size announced -/
  | size (total : Int)
  /-- bytes written to the file of a block; `complete` if it was all of them -/
  | block (b : BlockDetails) (data : Bytes) (complete : Bool)
  /-- the checksum of the block just written was right -/
  | verified (b : BlockDetails)
deriving DecidableEq, Repr

/-- The state a handler moves to, other than READ_NEXT_CMD
(ReceiverThread.h:30-53). -/
inductive ROut where
  /-- ACCEPT_WITH_TIMEOUT with a local error -/
  | reconnect (e : ErrCode)
  /-- FINISH_WITH_ERROR -/
  | finish (e : ErrCode)
  /-- SEND_ABORT_CMD -/
  | abort (e : ErrCode)
  /-- SEND_FILE_CHUNKS -/
  | sendChunks
  /-- WAIT_FOR_FINISH_OR_NEW_CHECKPOINT: status byte, number of blocks, total -/
  | done (status : UInt8) (numBlocks : Int) (total : Option Int)
deriving DecidableEq, Repr

/-- Result of one handler: continue reading commands or leave the loop. -/
inductive RNext where
  | next (c : RcvConn)
  | stop (o : ROut)
deriving DecidableEq, Repr

/-- `processDoneCmd` (ReceiverThread.cpp:691-718); `old` is `oldOffset_`. -/
def processDone (c : RcvConn) (old : Int) : Except Fault (List RObs × RNext) :=
  if c.numRead ≠ kMinBufLength then .ok ([], .stop (.finish ePROTOCOL_ERROR))
  else match loadByte c.buf c.off with
    | .error f => .error f
    | .ok status => match decodeDone c.ver c.buf (c.off + 1) (old + kMaxDone) with
      | .error f => .error f
      | .ok (none, _) => .ok ([], .stop (.finish ePROTOCOL_ERROR))
      | .ok (some (n, total), _) => .ok ([], .stop (.done status n total))

/-- `processSizeCmd` (ReceiverThread.cpp:720-735). -/
def processSize (c : RcvConn) (old : Int) : Except Fault (List RObs × RNext) :=
  match decodeSize c.buf c.off (old + kMaxSize) with
  | .error f => .error f
  | .ok (none, _) => .ok ([], .stop (.finish ePROTOCOL_ERROR))
  | .ok (some total, off) =>
    .ok ([.size total], .next { c with off := off, numRead := c.numRead - (off - old) })

/-- `processSettingsCmd` (ReceiverThread.cpp:288-368); `id` is the receiver's
transfer id. -/
def processSettings (id : Bytes) (c : RcvConn) (old : Int) : Except Fault (List RObs × RNext) :=
  match decodeVersion c.buf c.off (old + kMaxVersion) with
  | .error f => .error f
  | .ok (none, _) => .ok ([], .stop (.finish ePROTOCOL_ERROR))
  | .ok (some senderVer, off) =>
    match receiverOnSettings senderVer c.ver with
    | (_, .incompatible) => .ok ([], .stop (.abort eVERSION_INCOMPATIBLE))
    | (_, .versionMismatch _) => .ok ([], .stop (.abort eVERSION_MISMATCH))
    | (ver, .accept) =>
      match decodeSettings ver {} c.buf off (old + kMaxVersion + kMaxSettings) with
      | .error f => .error f
      | .ok (none, _) => .ok ([], .stop (.finish ePROTOCOL_ERROR))
      | .ok (some s, off) =>
        if s.transferId ≠ id then .ok ([], .stop (.abort eID_MISMATCH))
        else if s.sendFileChunks then .ok ([.settings s], .stop .sendChunks)
        else .ok ([.settings s],
          .next { c with off := off, numRead := c.numRead - (off - old), ver := ver, footer := s.enableChecksum })

/-- `folly::loadUnaligned<int16_t>` + `Endian::little`
(ReceiverThread.cpp:419-420). -/
def loadInt16 (buf : Bytes) (p : Int) : Except Fault Int :=
  match loadBytes buf p 2 with
  | .error f => .error f
  | .ok bs => .ok (if leNat bs < 32768 then (leNat bs : Int) else (leNat bs : Int) - 65536)

/-- The loop reading the rest of a block (ReceiverThread.cpp:538-572) with
`readAtMost` (63-79): reads into the start of the buffer; `missing` is
`dataSize - getTotalWritten()`.  Result: buffer, bytes received, connection. -/
def readBlockLoop (frag : List Int → Nat) : Nat → Bytes → Int → RNet → Except Fault (Bytes × Bytes × RNet)
  | 0, _, _, _ => .error .hang
  | fuel + 1, buf, missing, net =>
    if missing > 0 then
      if (netRead frag (min missing buf.length) net).1 = [] then
        .ok (buf, [], (netRead frag (min missing buf.length) net).2)
      else match storeBytes buf 0 (netRead frag (min missing buf.length) net).1 with
        | .error f => .error f
        | .ok buf' =>
          match readBlockLoop frag fuel buf'
              (missing - (netRead frag (min missing buf.length) net).1.length)
              (netRead frag (min missing buf.length) net).2 with
          | .error f => .error f
          | .ok (buf'', data, net') => .ok (buf'', (netRead frag (min missing buf.length) net).1 ++ data, net')
    else .ok (buf, [], net)

/-- Keeping or moving the bytes left over after a block
(ReceiverThread.cpp:602-620). -/
def keepLeftover (c : RcvConn) (remaining : Int) : Except Fault RcvConn :=
  if remaining > 0 then
    if remaining < kMaxHeader ∧ c.off > (c.buf.length : Int) / 2 then
      match loadBytes c.buf c.off remaining.toNat with
      | .error f => .error f
      | .ok bs => match storeBytes c.buf 0 bs with
        | .error f => .error f
        | .ok buf' => .ok { c with buf := buf', off := 0, numRead := remaining }
    else .ok { c with numRead := remaining }
  else .ok { c with numRead := 0, off := 0 }

/-- Reading and checking the footer (ReceiverThread.cpp:621-656).  The
checksum of the data is computed piece by piece in the code
(lines 514-516, 560-562); `crc` stands for the byte-wise step of
`folly::crc32c`, so that a fold over the whole block is the same thing. -/
def processFooter (frag : List Int → Nat) (crc : Int → UInt8 → Int) (b : BlockDetails) (data : Bytes)
    (c : RcvConn) : Except Fault (List RObs × RNext) :=
  match readAtLeast frag c.off (c.buf.length - c.off) kMinBufLength c.buf c.numRead c.net with
  | .error f => .error f
  | .ok (buf, numRead, net) =>
    if numRead < kMinBufLength then .ok ([], .stop (.reconnect eSOCKET_READ_ERROR))
    else match loadByte buf c.off with
      | .error f => .error f
      | .ok cmd =>
        if cmd ≠ FOOTER_CMD then .ok ([], .stop (.finish ePROTOCOL_ERROR))
        else match decodeFooter buf (c.off + 1) (c.off + kMaxFooter) with
          | .error f => .error f
          | .ok (none, _) => .ok ([], .stop (.finish ePROTOCOL_ERROR))
          | .ok (some sum, off) =>
            if data.foldl crc 0 ≠ sum then .ok ([], .stop (.reconnect eCHECKSUM_MISMATCH))
            else .ok ([.verified b],
              .next { c with buf := buf, net := net, off := off, numRead := numRead - (off - c.off) })

/-- The part of `processFileCmd` after the header was decoded
(ReceiverThread.cpp:506-665): `c.off` is past the header. -/
def processBlock (frag : List Int → Nat) (crc : Int → UInt8 → Int) (b : BlockDetails) (c : RcvConn)
    (old : Int) : Except Fault (List RObs × RNext) :=
  if c.numRead + old - c.off < 0 then .error .check
  else match loadBytes c.buf c.off (min (c.numRead + old - c.off) b.dataSize).toNat with
    | .error f => .error f
    | .ok first =>
      match readBlockLoop frag (c.net.rest.length + 1) c.buf
          (b.dataSize - min (c.numRead + old - c.off) b.dataSize) c.net with
      | .error f => .error f
      | .ok (buf, more, net) =>
        if ((first ++ more).length : Int) ≠ b.dataSize then
          .ok ([.block b (first ++ more) false], .stop (.reconnect eSOCKET_READ_ERROR))
        else match keepLeftover { c with buf := buf, net := net, off := c.off + first.length }
              (c.numRead + old - c.off - first.length) with
          | .error f => .error f
          | .ok c' =>
            if c'.footer then
              match processFooter frag crc b (first ++ more) c' with
              | .error f => .error f
              | .ok (obs, r) => .ok (.block b (first ++ more) true :: obs, r)
            else .ok ([.block b (first ++ more) true], .next c')

/-- `processFileCmd` up to the header (ReceiverThread.cpp:390-472).  Line 434
passes `buf_ + end` together with `numRead_` as the number of bytes already
there, so that bytes go to `buf_ + end + numRead_`. -/
def processFile (frag : List Int → Nat) (crc : Int → UInt8 → Int) (c : RcvConn) (old : Int) :
    Except Fault (List RObs × RNext) :=
  match loadInt16 c.buf (c.off + 1) with
  | .error f => .error f
  | .ok headerLen =>
    if headerLen ≤ 0 then .ok ([], .stop (.finish ePROTOCOL_ERROR))
    else match (if headerLen > c.numRead then
          readAtLeast frag (old + c.numRead) (c.buf.length - (old + c.numRead)) headerLen c.buf c.numRead c.net
        else .ok (c.buf, c.numRead, c.net)) with
      | .error f => .error f
      | .ok (buf, numRead, net) =>
        if numRead < headerLen then .ok ([], .stop (.reconnect eSOCKET_READ_ERROR))
        else match decodeHeader c.ver {} buf (c.off + 3) (numRead + old) with
          | .error f => .error f
          | .ok (d, off) =>
            if headerLen ≠ off - old then .ok ([], .stop (.finish ePROTOCOL_ERROR))
            else match d with
              | none => .ok ([], .stop (.finish ePROTOCOL_ERROR))
              | some b =>
                if b.allocationStatus = TO_BE_DELETED ∧ (b.fileSize ≠ 0 ∨ b.dataSize ≠ 0) then
                  .ok ([], .stop (.finish ePROTOCOL_ERROR))
                else processBlock frag crc b { c with buf := buf, numRead := numRead, net := net, off := off } old

/-- `readNextCmd` (ReceiverThread.cpp:257-285) and the handler it selects. -/
def readNextCmd (frag : List Int → Nat) (crc : Int → UInt8 → Int) (id : Bytes) (c : RcvConn) :
    Except Fault (List RObs × RNext) :=
  match readAtLeast frag c.off (c.buf.length - c.off) kMinBufLength c.buf c.numRead c.net with
  | .error f => .error f
  | .ok (buf, numRead, net) =>
    if numRead < kMinBufLength then .ok ([], .stop (.reconnect eSOCKET_READ_ERROR))
    else match loadByte buf c.off with
      | .error f => .error f
      | .ok cmd =>
        if cmd = DONE_CMD then
          processDone { c with buf := buf, numRead := numRead, net := net, off := c.off + 1 } c.off
        else if cmd = FILE_CMD then
          processFile frag crc { c with buf := buf, numRead := numRead, net := net, off := c.off + 1 } c.off
        else if cmd = SETTINGS_CMD then
          processSettings id { c with buf := buf, numRead := numRead, net := net, off := c.off + 1 } c.off
        else if cmd = SIZE_CMD then
          processSize { c with buf := buf, numRead := numRead, net := net, off := c.off + 1 } c.off
        else .ok ([], .stop (.finish ePROTOCOL_ERROR))

/-- The state machine loop (ReceiverThread.cpp:983-1008) restricted to the
states above: everything one connection makes the thread do.  `fuel` bounds the
number of commands; one more than the number of bytes of the stream is enough. -/
def receive (frag : List Int → Nat) (crc : Int → UInt8 → Int) (id : Bytes) :
    Nat → RcvConn → Except Fault (List RObs × ROut)
  | 0, _ => .error .hang
  | fuel + 1, c =>
    match readNextCmd frag crc id c with
    | .error f => .error f
    | .ok (obs, .stop o) => .ok (obs, o)
    | .ok (obs, .next c') =>
      match receive frag crc id fuel c' with
      | .error f => .error f
      | .ok (obs', o) => .ok (obs ++ obs', o)

/-- A connection right after it was accepted: `numRead_ = off_ = 0`
(ReceiverThread.cpp:223, 1052-1062); the buffer holds whatever it held. -/
def RcvConn.fresh (buf : Bytes) (stream : Bytes) (ver : Int) (footer : Bool) : RcvConn :=
  { buf, net := { rest := stream }, ver, footer }

end Wdt
