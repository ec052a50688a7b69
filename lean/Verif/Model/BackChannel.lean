import Verif.Model.Protocol
import Verif.Model.ReceiverStream
import Verif.Model.SenderThread
import Verif.Model.Setup
/-
What a receiver thread writes to its sender thread on one connection, byte by byte, and how
the sender thread reads it, heart beats included
(/repo/ReceiverThread.cpp:235-254, 370-388, 822-872, 944-984; /repo/SenderThread.cpp:151-206, 208-233, 247-280,
290-293, 360, 490-504, 625-756, 790-867).

The sender's states and transitions are those of Model.SenderThread (`tStep`); here the inputs
`TEnv` of its reading states are computed from the bytes of the connection.

Not modelled: encryption of the connection (Model.EncSocket), the exchange of file chunks
(Model.ChunkExchange), the wait for the send buffer to drain after a time out
(SenderThread.cpp:640-683: from outside, a longer time out), what the history does with a
checkpoint (Model.History), log output.
-/
namespace Wdt

/-- Protocol.h:279 -/
def WAIT_CMD : UInt8 := 0x57
/-- Protocol.h:280 -/
def ERR_CMD : UInt8 := 0x45
/-- Protocol.h:282 -/
def ABORT_CMD : UInt8 := 0x41
/-- Protocol.h:284 -/
def ACK_CMD : UInt8 := 0x61
/-- Protocol.h:287-288 -/
def LOCAL_CHECKPOINT_CMD : UInt8 := 0x01
/-- Protocol.h:294 -/
def HEART_BEAT_CMD : UInt8 := 0x48
/-- Protocol.cpp:32 -/
def HEART_BEAT_VERSION : Int := 29

/-! ### The receiver writes -/

/-- The messages of a receiver thread to its sender thread, other than the list of chunks. -/
inductive RMsg where
  /-- `sendHeartBeat` -/
  | heart
  /-- `waitForFinishOrNewCheckpoint` (ReceiverThread.cpp:974-975) -/
  | wait
  /-- `sendFileChunks` when another thread has sent them (ReceiverThread.cpp:746-748) -/
  | ack
  /-- `sendDoneCmd` (ReceiverThread.cpp:879-880) -/
  | done
  /-- `sendLocalCheckpoint` -/
  | localCp (c : Checkpoint)
  /-- `sendGlobalCheckpoint` -/
  | globalCp (cs : List Checkpoint)
  /-- `sendAbortCmd`: version, error code, number of files -/
  | abort (ver : Int) (code : Nat) (files : Int)
deriving DecidableEq, Repr

/-- Encoding at an offset, then the first bytes of the buffer as written to the socket. -/
def encTake (e : Enc) (buf : Bytes) (off : Int) : Except Fault (Bytes × Int) :=
  match e buf off with
  | .error f => .error f
  | .ok (_, buf', off') => .ok (buf', off')

/-- `sendLocalCheckpoint` (ReceiverThread.cpp:235-254): the result of the encoder is not looked at, and
a fixed number of bytes is written whatever the length of the encoding, so that bytes left in the
buffer from before follow. -/
def sendLocalCp (ver : Int) (buf : Bytes) (c : Checkpoint) : Except Fault Bytes :=
  match encTake (encodeCheckpoints ver (getMaxLocalCheckpointLength ver) [c]) buf 0 with
  | .error f => .error f
  | .ok (buf', _) => .ok (buf'.take (getMaxLocalCheckpointLength ver).toNat)

/-- `sendGlobalCheckpoint` (ReceiverThread.cpp:833-856). -/
def sendGlobalCp (ver : Int) (buf : Bytes) (cs : List Checkpoint) : Except Fault Bytes :=
  match storeByte buf 0 ERR_CMD with
  | .error f => .error f
  | .ok b1 => match encTake (encodeCheckpoints ver buf.length cs) b1 3 with
    | .error f => .error f
    | .ok (b2, off) => match storeBytes b2 1 (leBytes 2 (off - 3)) with
      | .error f => .error f
      | .ok b3 => .ok (b3.take off.toNat)

/-- `sendAbortCmd` (ReceiverThread.cpp:858-870). -/
def sendAbort (buf : Bytes) (ver : Int) (code : Nat) (files : Int) : Except Fault Bytes :=
  match storeByte buf 0 ABORT_CMD with
  | .error f => .error f
  | .ok b1 => match encTake (encodeAbort buf.length ver code files) b1 1 with
    | .error f => .error f
    | .ok (b2, off) => .ok (b2.take off.toNat)

/-- The bytes written for a message by a thread that speaks version `ver` and whose buffer holds `buf`
(for a heart beat: ReceiverThread.cpp:381-383, which has a buffer of its own). -/
def sendMsg (ver : Int) (buf : Bytes) : RMsg → Except Fault Bytes
  | .heart => .ok [HEART_BEAT_CMD]
  | .wait => .ok [WAIT_CMD]
  | .ack => .ok [ACK_CMD]
  | .done => .ok [DONE_CMD]
  | .localCp c => sendLocalCp ver buf c
  | .globalCp cs => sendGlobalCp ver buf cs
  | .abort v code files => sendAbort buf v code files

/-- Messages one after the other on one connection, each with what the thread's buffer held before. -/
def sendMsgs (ver : Int) : List (Bytes × RMsg) → Except Fault Bytes
  | [] => .ok []
  | (buf, m) :: ms =>
    match sendMsg ver buf m with
    | .error f => .error f
    | .ok b => match sendMsgs ver ms with
      | .error f => .error f
      | .ok bs => .ok (b ++ bs)

/-- `durationMillis` (Reporting.h:40-43): the number of milliseconds, cut to an `int`. -/
def durationMs (d : Int) : Int := toI32 d

/-- The calls of `sendHeartBeat` at the times `ts` (ReceiverThread.cpp:370-388) of a receiver to which
heart beats were allowed and the sender's read timeout is `readTimeout`; `last`: `lastHeartBeatTime_`.
Result: the times at which a heart beat was written.  (Simplified: a failed write is only logged,
line 384-387.) -/
def beatTimes (readTimeout : Int) : Int → List Int → List Int
  | _, [] => []
  | last, t :: ts =>
    if durationMs (t - last) ≤ toI32 (Int.tdiv readTimeout 5) then beatTimes readTimeout last ts
    else t :: beatTimes readTimeout t ts

/-! ### The sender reads -/

/-- A read that wants `n` bytes when `av` bytes arrive before it gives up: what it returns and what is
left on the connection. -/
def readSome (inp : Bytes) (n av : Nat) : Bytes × Bytes :=
  (inp.take (min n av), inp.drop (min n av))

/-- Whether heart beats are used: the sender's decision (SenderThread.cpp:215-226). -/
def heartBeatOn (ver : Int) (option : Bool) : Bool := decide (ver ≥ HEART_BEAT_VERSION) && option

/-- `readHeartBeats` (SenderThread.cpp:249-280), `due`: lines 253-259.  Result: the error code, which both
callers ignore (293, 359-360), and what is left on the connection. -/
def readHeartBeats (on due : Bool) (bufSize av : Nat) (inp : Bytes) : ErrCode × Bytes :=
  if !on then (eOK, inp)
  else if !due then (eOK, inp)
  else
    let r := readSome inp bufSize av
    if r.1 = [] then (eSOCKET_READ_ERROR, r.2)
    else if r.1.all (· == HEART_BEAT_CMD) then (eOK, r.2)
    else (ePROTOCOL_ERROR, r.2)

/-- What the sender takes from a message it acts on. -/
inductive Heard where
  | wait | done
  | checkpoints (cs : List Checkpoint)
  | abort (ver : Int) (code : Nat) (files : Int)
deriving DecidableEq, Repr

/-- What the reading functions depend on besides the connection: bytes that arrive in time for the first
and second read, `code`: result of `readNextReceiverCmd` if nothing is read, `eos`: result of
`expectEndOfStream`, `mem`: contents of `buf_`. -/
structure HearEnv where
  a1 : Nat
  a2 : Nat
  code : ErrCode := eSOCKET_READ_ERROR
  eos : ErrCode := eOK
  mem : Bytes

/-- `readAndVerifySpuriousCheckpoint` (SenderThread.cpp:725-756), after the command byte. -/
def readSpurious (ver port : Int) (av : Nat) (inp : Bytes) : Except Fault (CpRead × Bytes) :=
  let len := (getMaxLocalCheckpointLength ver).toNat
  let r := readSome inp (len - 1) av
  if r.1.length ≠ len - 1 then .ok (.readFailed, r.2)
  else match decodeCheckpoints ver (LOCAL_CHECKPOINT_CMD :: r.1) 0 len with
    | .error f => .error f
    | .ok (none, _) => .ok (.malformed, r.2)
    | .ok (some [c], _) =>
      if c.port = port ∧ c.numBlocks = 0 ∧ c.lastBlockReceivedBytes = 0 then .ok (.set .ok, r.2)
      else .ok (.malformed, r.2)
    | .ok (some _, _) => .ok (.malformed, r.2)

/-- `readReceiverCmd` (SenderThread.cpp:685-723) with `readNextReceiverCmd` (625-683). -/
def hearCmd (ver port : Int) (e : HearEnv) (inp : Bytes) : Except Fault (TEnv × Bytes) :=
  match readSome inp 1 e.a1 with
  | ([], rest) => .ok (.cmdError e.code, rest)
  | (c :: _, rest) =>
    if c = ERR_CMD then .ok (.cmdErr, rest)
    else if c = WAIT_CMD then .ok (.cmdWait, rest)
    else if c = DONE_CMD then .ok (.cmdDone, rest)
    else if c = ABORT_CMD then .ok (.cmdAbort, rest)
    else if c = LOCAL_CHECKPOINT_CMD then
      match readSpurious ver port e.a2 rest with
      | .error f => .error f
      | .ok (r, rest) => .ok (.cmdCheckpoint r, rest)
    else if c = HEART_BEAT_CMD then .ok (.cmdHeartBeat, rest)
    else .ok (.cmdUnknown, rest)

/-- `processErrCmd` (SenderThread.cpp:790-827) up to the use of the checkpoints.  A negative length makes a
variable length array of negative size. -/
def hearErr (ver : Int) (e : HearEnv) (inp : Bytes) : Except Fault (TEnv × List Heard × Bytes) :=
  let r := readSome inp 2 e.a1
  if r.1.length ≠ 2 then .ok (.errReadFailed, [], r.2)
  else match loadInt16 r.1 0 with
    | .error f => .error f
    | .ok len =>
      if len < 0 then .error .ub
      else
        let r2 := readSome r.2 len.toNat e.a2
        if (r2.1.length : Int) ≠ len then .ok (.errReadFailed, [], r2.2)
        else match decodeCheckpoints ver r2.1 0 len with
          | .error f => .error f
          | .ok (none, _) => .ok (.errMalformed, [], r2.2)
          | .ok (some cs, _) => .ok (.errProcessed, [.checkpoints cs], r2.2)

/-- `processAbortCmd` (SenderThread.cpp:829-867).  The result of `decodeAbort` is not looked at: if it fails, the
variables it should have set are read uninitialised. -/
def hearAbort (ver : Int) (e : HearEnv) (inp : Bytes) : Except Fault (TEnv × List Heard × Bytes) :=
  let r := readSome inp kAbortLength.toNat e.a1
  if (r.1.length : Int) ≠ kAbortLength then .ok (.abortReadFailed, [], r.2)
  else match decodeAbort (r.1 ++ e.mem.drop r.1.length) 0 e.mem.length with
    | .error f => .error f
    | .ok (none, _) => .error .ub
    | .ok (some (v, code, files), _) =>
      .ok (.abortRead code (decide (negotiateProtocol v ver = v)), [.abort v code files], r.2)

/-- `readLocalCheckPoint` (SenderThread.cpp:151-206); `res`: what `setLocalCheckpoint` says. -/
def hearLocalCp (ver port : Int) (res : CpRes) (av : Nat) (inp : Bytes) : Except Fault (TEnv × Bytes) :=
  let len := (getMaxLocalCheckpointLength ver).toNat
  let r := readSome inp len av
  if r.1.length ≠ len then .ok (.checkpoint .readFailed, r.2)
  else match decodeCheckpoints ver r.1 0 len with
    | .error f => .error f
    | .ok (some [c], _) =>
      if c.port = port then .ok (.checkpoint (.set res), r.2) else .ok (.checkpoint .malformed, r.2)
    | .ok (_, _) => .ok (.checkpoint .malformed, r.2)

/-- `checkForAbort` (SenderThread.cpp:490-504). -/
def hearCheckAbort (e : HearEnv) (inp : Bytes) : TEnv × Bytes :=
  let r := readSome inp 1 e.a1
  (.gotAbort (decide (r.1 = [ABORT_CMD])), r.2)

/-- What a reading state function learns from the connection; `none`: not a reading state. -/
def hearStep (ver port : Int) (e : HearEnv) (st : SState) (inp : Bytes) :
    Option (Except Fault (TEnv × List Heard × Bytes)) :=
  match st with
  | .readReceiverCmd => some <| match hearCmd ver port e inp with
    | .error f => .error f
    | .ok (.cmdWait, rest) => .ok (.cmdWait, [.wait], rest)
    | .ok (.cmdDone, rest) => .ok (.cmdDone, [.done], rest)
    | .ok (ev, rest) => .ok (ev, [], rest)
  | .processErrCmd => some (hearErr ver e inp)
  | .processAbortCmd => some (hearAbort ver e inp)
  | .processWaitCmd => some (.ok (.waitProcessed, [], inp))
  | .processDoneCmd => some (.ok (.endOfStream e.eos, [], inp))
  | .checkForAbort => some (.ok ((hearCheckAbort e inp).1, [], (hearCheckAbort e inp).2))
  | _ => none

/-- The loop of the sender thread (SenderThread.cpp:969-980) while it only reads: at most `fuel` state
functions, each given the bytes of the connection; stops in a state that does not read, and where the
thread waits for a command and nothing is left.  Everything written by the receiver arrives in time. -/
def hearRun (ver port maxRetries : Int) (eos : ErrCode) (mem : Bytes) :
    Nat → TState → Bytes → Except Fault (List Heard × TState × Bytes)
  | 0, t, inp => .ok ([], t, inp)
  | fuel + 1, t, inp =>
    if t.state = .readReceiverCmd ∧ inp = [] then .ok ([], t, inp)
    else match hearStep ver port { a1 := inp.length, a2 := inp.length, eos, mem } t.state inp with
      | none => .ok ([], t, inp)
      | some (.error f) => .error f
      | some (.ok (ev, hs, rest)) => match tStep maxRetries t ev with
        | none => .ok ([], t, inp)
        | some (.error f) => .error f
        | some (.ok t') => match hearRun ver port maxRetries eos mem fuel t' rest with
          | .error f => .error f
          | .ok (hs', t'', rest') => .ok (hs ++ hs', t'', rest')

end Wdt
