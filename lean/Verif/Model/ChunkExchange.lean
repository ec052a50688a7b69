import Verif.Model.Protocol
/-
Model of the chunk-list exchange used to resume a download
(/repo/ReceiverThread.cpp:770-812 and /repo/SenderThread.cpp:543-608).
-/
namespace Wdt

/-- `while (numEntriesWritten < numParsedChunksInfo)` of `sendFileChunks`
(ReceiverThread.cpp:793-809), assuming every socket write succeeds.  `n` =
`numEntriesWritten`.  Result: the bytes of each message in order, or `none` if
the loop has not ended after `fuel` messages. -/
def sendChunksLoop (bufSize : Int) (l : List FileChunksInfo) :
    Nat → Nat → Bytes → Except Fault (Option (List Bytes))
  | 0, n, _ => if n < l.length then .ok none else .ok (some [])
  | fuel + 1, n, buf =>
    if n < l.length then
      match encodeFileChunksInfoList bufSize n l buf 4 with
      | .error f => .error f
      | .ok (k, buf', off) =>
        match storeBytes buf' 0 (leBytes 4 (off - 4)) with
        | .error f => .error f
        | .ok buf'' => match sendChunksLoop bufSize l fuel (n + k) buf'' with
          | .error f => .error f
          | .ok none => .ok none
          | .ok (some ms) => .ok (some (buf''.take off.toNat :: ms))
    else .ok (some [])

/-- The whole `FUNNEL_START` branch of `sendFileChunks`
(ReceiverThread.cpp:770-809): the CHUNKS command and the messages. -/
def sendFileChunks (bufSize : Int) (l : List FileChunksInfo) (fuel : Nat) (buf : Bytes) :
    Except Fault (Option Bytes) :=
  match storeByte buf 0 0x43 with
  | .error f => .error f
  | .ok buf0 => match encodeChunksCmd bufSize bufSize l.length buf0 1 with
    | .error f => .error f
    | .ok (_, buf1, off) => match sendChunksLoop bufSize l fuel 0 buf1 with
      | .error f => .error f
      | .ok none => .ok none
      | .ok (some ms) => .ok (some (buf1.take off.toNat ++ ms.flatten))

/-- Outcome of the sender's side. -/
inductive ReadChunks where
  /-- list complete; unread bytes of the stream -/
  | done (l : List FileChunksInfo) (rest : Bytes)
  /-- stream ended early (SOCKET_READ_ERROR) -/
  | short
  /-- PROTOCOL_ERROR -/
  | bad
deriving DecidableEq, Repr

/-- Loop of `readFileChunks` (SenderThread.cpp:559-605) over the bytes the
receiver wrote; `chunkBuffer` has `bufSize` bytes.  The length prefix is a
signed 32-bit number that is not compared with `bufSize` before
`socket_->read(chunkBuffer.get(), toRead)`: reading more than `bufSize` bytes, or
a negative count, is undefined behaviour. -/
def readChunksLoop (bufSize numFiles : Int) :
    Nat → List FileChunksInfo → Bytes → Except Fault ReadChunks
  | fuel, acc, stream =>
    if (acc.length : Int) > numFiles then .ok .bad
    else if (acc.length : Int) = numFiles then .ok (.done acc stream)
    else match fuel with
      | 0 => .ok .short
      | fuel + 1 =>
        if stream.length < 4 then .ok .short
        else
          let u := leNat (stream.take 4)
          let toRead : Int := if u < 2147483648 then u else (u : Int) - 4294967296
          let stream' := stream.drop 4
          if toRead < 0 ∨ toRead > bufSize then .error .ub
          else if (stream'.length : Int) < toRead then .ok .short
          else match decodeFileChunksInfoList (stream'.take toRead.toNat) 0 toRead with
            | .error f => .error f
            | .ok (none, _) => .ok .bad
            | .ok (some l, _) =>
              readChunksLoop bufSize numFiles fuel (acc ++ l) (stream'.drop toRead.toNat)

/-- `readFileChunks` from the command byte on (SenderThread.cpp:506-605) when the
command is CHUNKS_CMD; other commands are outside this model. -/
def readFileChunks (fuel : Nat) (stream : Bytes) : Except Fault ReadChunks :=
  match stream with
  | [] => .ok .short
  | cmd :: stream1 =>
    if cmd ≠ 0x43 then .ok .bad
    else if stream1.length < 16 then .ok .short
    else match decodeChunksCmd (stream1.take 16) 0 16 with
      | .error f => .error f
      | .ok (none, _) => .ok .bad
      | .ok (some (bufSize, numFiles), _) =>
        if bufSize < 0 ∨ numFiles < 0 then .ok .bad
        else readChunksLoop bufSize numFiles fuel [] (stream1.drop 16)

end Wdt
