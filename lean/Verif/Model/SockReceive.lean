import Verif.Model.EncSocket
/-
Model of a receiver thread that reads from any socket, an encrypted one in
particular: the loops and handlers of /repo/ReceiverThread.cpp:30-79, 257-285,
390-665, 983-1008 with the socket's `read` as a parameter.

`Model/ReceiverStream.lean` has the same functions for a socket that hands out the
bytes of the sender unchanged; the handlers that do not read (DONE, SIZE, SETTINGS,
the bytes left over behind a block) are taken from there.  The same simplifications
apply.  The field `net` of `RcvConn` is not used here, the socket is apart.
-/
namespace Wdt

/-- An `IServerSocket` (util/IServerSocket.h) as `readAtLeast` and `readAtMost`
see it: `read n s` is `read(buf, n, /* tryFull */ false)` with the return value, the
bytes stored and the socket afterwards; `left` bounds the bytes that can still be
returned. -/
structure Sock (σ : Type) where
  read : Int → σ → Except Fault (Int × Bytes × σ)
  left : σ → Nat

section
variable {σ : Type}

/-- Loop of `readAtLeast` (ReceiverThread.cpp:38-57) for a destination `buf + base`. -/
def sReadAtLeastLoop (K : Sock σ) (base max atLeast : Int) :
    Nat → Bytes → Int → σ → Except Fault (Bytes × Int × σ)
  | 0, _, _, _ => .error .hang
  | fuel + 1, buf, len, s =>
    if len < atLeast then
      match K.read (max - len) s with
      | .error f => .error f
      | .ok (ret, bs, s') =>
        if ret < 0 then .ok (buf, if len = 0 then ret else len, s')
        else if ret = 0 then .ok (buf, len, s')
        else match storeBytes buf (base + len) bs with
          | .error f => .error f
          | .ok buf' => sReadAtLeastLoop K base max atLeast fuel buf' (len + ret) s'
    else .ok (buf, len, s)

/-- `readAtLeast` (ReceiverThread.cpp:30-61). -/
def sReadAtLeast (K : Sock σ) (base max atLeast : Int) (buf : Bytes) (len : Int) (s : σ) :
    Except Fault (Bytes × Int × σ) :=
  if len < 0 then .error .check
  else if atLeast ≤ 0 then .error .check
  else if atLeast > max then .error .check
  else sReadAtLeastLoop K base max atLeast (K.left s + 1) buf len s

/-- The loop reading the rest of a block (ReceiverThread.cpp:538-572) with
`readAtMost` (63-79). -/
def sReadBlockLoop (K : Sock σ) : Nat → Bytes → Int → σ → Except Fault (Bytes × Bytes × σ)
  | 0, _, _, _ => .error .hang
  | fuel + 1, buf, missing, s =>
    if missing > 0 then
      match K.read (min missing buf.length) s with
      | .error f => .error f
      | .ok (ret, bs, s') =>
        if ret ≤ 0 then .ok (buf, [], s')
        else match storeBytes buf 0 bs with
          | .error f => .error f
          | .ok buf' =>
            match sReadBlockLoop K fuel buf' (missing - ret) s' with
            | .error f => .error f
            | .ok (buf'', data, s'') => .ok (buf'', bs ++ data, s'')
    else .ok (buf, [], s)

/-- Reading and checking the footer (ReceiverThread.cpp:621-656). -/
def sProcessFooter (K : Sock σ) (crc : Int → UInt8 → Int) (b : BlockDetails) (data : Bytes)
    (c : RcvConn) (s : σ) : Except Fault (List RObs × RNext × σ) :=
  match sReadAtLeast K c.off (c.buf.length - c.off) kMinBufLength c.buf c.numRead s with
  | .error f => .error f
  | .ok (buf, numRead, s) =>
    if numRead < kMinBufLength then .ok ([], .stop (.reconnect eSOCKET_READ_ERROR), s)
    else match loadByte buf c.off with
      | .error f => .error f
      | .ok cmd =>
        if cmd ≠ FOOTER_CMD then .ok ([], .stop (.finish ePROTOCOL_ERROR), s)
        else match decodeFooter buf (c.off + 1) (c.off + kMaxFooter) with
          | .error f => .error f
          | .ok (none, _) => .ok ([], .stop (.finish ePROTOCOL_ERROR), s)
          | .ok (some sum, off) =>
            if data.foldl crc 0 ≠ sum then .ok ([], .stop (.reconnect eCHECKSUM_MISMATCH), s)
            else .ok ([.verified b],
              .next { c with buf := buf, off := off, numRead := numRead - (off - c.off) }, s)

/-- The part of `processFileCmd` after the header was decoded
(ReceiverThread.cpp:506-665). -/
def sProcessBlock (K : Sock σ) (crc : Int → UInt8 → Int) (b : BlockDetails) (c : RcvConn)
    (old : Int) (s : σ) : Except Fault (List RObs × RNext × σ) :=
  if c.numRead + old - c.off < 0 then .error .check
  else match loadBytes c.buf c.off (min (c.numRead + old - c.off) b.dataSize).toNat with
    | .error f => .error f
    | .ok first =>
      match sReadBlockLoop K (K.left s + 1) c.buf
          (b.dataSize - min (c.numRead + old - c.off) b.dataSize) s with
      | .error f => .error f
      | .ok (buf, more, s) =>
        if ((first ++ more).length : Int) ≠ b.dataSize then
          .ok ([.block b (first ++ more) false], .stop (.reconnect eSOCKET_READ_ERROR), s)
        else match keepLeftover { c with buf := buf, off := c.off + first.length }
              (c.numRead + old - c.off - first.length) with
          | .error f => .error f
          | .ok c' =>
            if c'.footer then
              match sProcessFooter K crc b (first ++ more) c' s with
              | .error f => .error f
              | .ok (obs, r, s) => .ok (.block b (first ++ more) true :: obs, r, s)
            else .ok ([.block b (first ++ more) true], .next c', s)

/-- `processFileCmd` up to the header (ReceiverThread.cpp:390-472). -/
def sProcessFile (K : Sock σ) (crc : Int → UInt8 → Int) (c : RcvConn) (old : Int) (s : σ) :
    Except Fault (List RObs × RNext × σ) :=
  match loadInt16 c.buf (c.off + 1) with
  | .error f => .error f
  | .ok headerLen =>
    if headerLen ≤ 0 then .ok ([], .stop (.finish ePROTOCOL_ERROR), s)
    else match (if headerLen > c.numRead then
          sReadAtLeast K (old + c.numRead) (c.buf.length - (old + c.numRead)) headerLen c.buf c.numRead s
        else .ok (c.buf, c.numRead, s)) with
      | .error f => .error f
      | .ok (buf, numRead, s) =>
        if numRead < headerLen then .ok ([], .stop (.reconnect eSOCKET_READ_ERROR), s)
        else match decodeHeader c.ver {} buf (c.off + 3) (numRead + old) with
          | .error f => .error f
          | .ok (d, off) =>
            if headerLen ≠ off - old then .ok ([], .stop (.finish ePROTOCOL_ERROR), s)
            else match d with
              | none => .ok ([], .stop (.finish ePROTOCOL_ERROR), s)
              | some b =>
                if b.allocationStatus = TO_BE_DELETED ∧ (b.fileSize ≠ 0 ∨ b.dataSize ≠ 0) then
                  .ok ([], .stop (.finish ePROTOCOL_ERROR), s)
                else sProcessBlock K crc b { c with buf := buf, numRead := numRead, off := off } old s

/-- A handler that does not read, with the socket. -/
def withSock (x : Except Fault (List RObs × RNext)) (s : σ) : Except Fault (List RObs × RNext × σ) :=
  match x with
  | .error f => .error f
  | .ok (obs, r) => .ok (obs, r, s)

/-- `readNextCmd` (ReceiverThread.cpp:257-285) and the handler it selects. -/
def sReadNextCmd (K : Sock σ) (crc : Int → UInt8 → Int) (id : Bytes) (c : RcvConn) (s : σ) :
    Except Fault (List RObs × RNext × σ) :=
  match sReadAtLeast K c.off (c.buf.length - c.off) kMinBufLength c.buf c.numRead s with
  | .error f => .error f
  | .ok (buf, numRead, s) =>
    if numRead < kMinBufLength then .ok ([], .stop (.reconnect eSOCKET_READ_ERROR), s)
    else match loadByte buf c.off with
      | .error f => .error f
      | .ok cmd =>
        if cmd = DONE_CMD then
          withSock (processDone { c with buf := buf, numRead := numRead, off := c.off + 1 } c.off) s
        else if cmd = FILE_CMD then
          sProcessFile K crc { c with buf := buf, numRead := numRead, off := c.off + 1 } c.off s
        else if cmd = SETTINGS_CMD then
          withSock (processSettings id { c with buf := buf, numRead := numRead, off := c.off + 1 } c.off) s
        else if cmd = SIZE_CMD then
          withSock (processSize { c with buf := buf, numRead := numRead, off := c.off + 1 } c.off) s
        else .ok ([], .stop (.finish ePROTOCOL_ERROR), s)

/-- The state machine loop (ReceiverThread.cpp:983-1008) restricted to these states:
everything one connection makes the thread do, and the socket at the end. -/
def sReceive (K : Sock σ) (crc : Int → UInt8 → Int) (id : Bytes) :
    Nat → RcvConn → σ → Except Fault (List RObs × ROut × σ)
  | 0, _, _ => .error .hang
  | fuel + 1, c, s =>
    match sReadNextCmd K crc id c s with
    | .error f => .error f
    | .ok (obs, .stop o, s) => .ok (obs, o, s)
    | .ok (obs, .next c', s) =>
      match sReceive K crc id fuel c' s with
      | .error f => .error f
      | .ok (obs', o, s) => .ok (obs ++ obs', o, s)

end

/-- The socket of a receiver thread (util/ServerSocket.cpp:18-28 on top of
util/WdtSocket.cpp:310-371), with encryption. -/
def encSock (C : Cipher) (encType : Int) (junk : UInt8) (io : Nat → Option Nat) (I : Int) : Sock SrvSock where
  read n s := srvRead C encType junk io I n false s
  left s := s.r.net.rest.length

/-- The thread's state when it starts on a new connection (ReceiverThread.cpp:223,
1052-1062). -/
def RcvConn.start (buf : Bytes) (ver : Int) (footer : Bool) : RcvConn := .fresh buf [] ver footer

end Wdt
