import Verif.Model.ReceiverStream
/-
Model of the bytes a sender thread writes to a connection
(/repo/SenderThread.cpp:208-245, 316-446, 448-496).

Simplified: every socket write succeeds completely, the data of a block is what
its byte source delivered and has the announced size (the other cases are in
`Model/SenderThread.lean` and `Model/FileByteSource.lean`), and the throttler is left out.
-/
namespace Wdt

/-- `sendSettings` (SenderThread.cpp:208-245): the new contents of `buf_` and the
bytes written.  The result of `encodeSettings` is ignored, as in the code (line 236). -/
def sendSettingsMsg (ver : Int) (s : Settings) (buf : Bytes) : Except Fault (Bytes × Bytes) :=
  match storeByte buf 0 SETTINGS_CMD with
  | .error f => .error f
  | .ok buf => match encodeSettings ver kMaxSettings s buf 1 with
    | .error f => .error f
    | .ok (_, buf, off) => .ok (buf, buf.take (if s.sendFileChunks then kMinBufLength else off).toNat)

/-- `sendSizeCmd` (SenderThread.cpp:448-464). -/
def sendSizeMsg (total : Int) (buf : Bytes) : Except Fault (Bytes × Bytes) :=
  match storeByte buf 0 SIZE_CMD with
  | .error f => .error f
  | .ok buf => match encodeSize kMaxSize total buf 1 with
    | .error f => .error f
    | .ok (_, buf, off) => .ok (buf, buf.take off.toNat)

/-- `sendDoneCmd` (SenderThread.cpp:466-489): always 256 bytes, the rest being
whatever the buffer held. -/
def sendDoneMsg (ver : Int) (status : UInt8) (numBlocks total : Int) (buf : Bytes) : Except Fault (Bytes × Bytes) :=
  match storeBytes buf 0 [DONE_CMD, status] with
  | .error f => .error f
  | .ok buf => match encodeDone ver kMaxDone numBlocks total buf 2 with
    | .error f => .error f
    | .ok (_, buf, _) => .ok (buf, buf.take kMinBufLength.toNat)

/-- The header part of `sendOneByteSource` (SenderThread.cpp:319-340); `hbuf` is
the uninitialised local array `headerBuf`. -/
def sendHeaderMsg (ver : Int) (status : UInt8) (b : BlockDetails) (hbuf : Bytes) : Except Fault Bytes :=
  match storeBytes hbuf 0 [FILE_CMD, status] with
  | .error f => .error f
  | .ok hbuf => match encodeHeader ver kMaxHeader b hbuf 4 with
    | .error f => .error f
    | .ok (_, hbuf, off) => match storeBytes hbuf 2 (leBytes 2 off) with
      | .error f => .error f
      | .ok hbuf => .ok (hbuf.take off.toNat)

/-- The footer part of `sendOneByteSource` (SenderThread.cpp:426-440). -/
def sendFooterMsg (checksum : Int) (hbuf : Bytes) : Except Fault Bytes :=
  match storeByte hbuf 0 FOOTER_CMD with
  | .error f => .error f
  | .ok hbuf => match encodeFooter kMaxFooter checksum hbuf 1 with
    | .error f => .error f
    | .ok (_, hbuf, off) => .ok (hbuf.take off.toNat)

/-- `sendOneByteSource` (SenderThread.cpp:316-446) for a source that delivers `data`. -/
def sendBlockMsg (ver : Int) (crc : Int → UInt8 → Int) (footer : Bool) (status : UInt8) (b : BlockDetails)
    (data hbuf : Bytes) : Except Fault Bytes :=
  match sendHeaderMsg ver status b hbuf with
  | .error f => .error f
  | .ok h =>
    if footer then
      match sendFooterMsg (data.foldl crc 0) hbuf with
      | .error f => .error f
      | .ok t => .ok (h ++ data ++ t)
    else .ok (h ++ data)

/-- What a sender thread sends between the settings and DONE. -/
inductive SItem where
  | block (status : UInt8) (b : BlockDetails) (data : Bytes)
  | size (total : Int)
deriving DecidableEq, Repr

/-- States SEND_BLOCKS and SEND_SIZE_CMD until there is nothing left, then
SEND_DONE_CMD (SenderThread.cpp:281-314, 448-489).  `buf` is `buf_`, `hbuf` the
contents of the local array; `hver` is the version used for headers
(`wdtParent_->getProtocolVersion()`, line 337), `ver` the thread's. -/
def sendItems (ver hver : Int) (crc : Int → UInt8 → Int) (footer : Bool) (hbuf : Bytes) (status : UInt8)
    (numBlocks total : Int) : List SItem → Bytes → Except Fault Bytes
  | [], buf => match sendDoneMsg ver status numBlocks total buf with
    | .error f => .error f
    | .ok (_, bs) => .ok bs
  | .size t :: is, buf => match sendSizeMsg t buf with
    | .error f => .error f
    | .ok (buf, bs) => match sendItems ver hver crc footer hbuf status numBlocks total is buf with
      | .error f => .error f
      | .ok r => .ok (bs ++ r)
  | .block st b data :: is, buf => match sendBlockMsg hver crc footer st b data hbuf with
    | .error f => .error f
    | .ok bs => match sendItems ver hver crc footer hbuf status numBlocks total is buf with
      | .error f => .error f
      | .ok r => .ok (bs ++ r)

/-- Everything a sender thread writes to a connection on which nothing goes
wrong, when it does not ask for a list of chunks (SEND_SETTINGS, then the above). -/
def sendStream (ver hver : Int) (crc : Int → UInt8 → Int) (s : Settings) (hbuf : Bytes) (status : UInt8)
    (numBlocks total : Int) (items : List SItem) (buf : Bytes) : Except Fault Bytes :=
  match sendSettingsMsg ver s buf with
  | .error f => .error f
  | .ok (buf, bs) => match sendItems ver hver crc s.enableChecksum hbuf status numBlocks total items buf with
    | .error f => .error f
    | .ok r => .ok (bs ++ r)

end Wdt
