import Verif.Model.ErrorCode
import Verif.Model.History
/-
State machine of a sender thread (/repo/SenderThread.cpp:35-1030).

Each state function of the code becomes a case of `tStep`; what it learns from the
socket, the queue, the history and the parent object is an input (`TEnv`), so a run of
`tStep` with arbitrary inputs covers every behaviour of peer, network and other
threads.  Not modelled here: the bytes themselves (Model.Protocol), the queue and the
history (Model.SourceQueue, Model.History), log output, timing.
-/
namespace Wdt

/-- `enum SenderState` (SenderThread.h:23-39) -/
inductive SState where
  | connect | readLocalCheckpoint | sendSettings | sendBlocks | sendDoneCmd | sendSizeCmd
  | checkForAbort | readFileChunks | readReceiverCmd | processDoneCmd | processWaitCmd
  | processErrCmd | processAbortCmd | processVersionMismatch | finished
deriving DecidableEq, Repr

/-- What a sender thread remembers: state, `numReconnectWithoutProgress_`, error codes of
`threadStats_`, whether `socket_` is set, `totalSizeSent_`. -/
structure TState where
  state : SState := .connect
  noProgress : Int := 0
  localErr : ErrCode := eOK
  remoteErr : ErrCode := eOK
  hasSocket : Bool := false
  totalSizeSent : Bool := false
deriving DecidableEq, Repr

/-- Outcome of reading a local checkpoint (SenderThread.cpp:151-206).  The branch for -1 blocks (190-193) is not here: the
decoder of checkpoints refuses numbers above the largest `int64_t` (SerializationUtil.h, `decodeInt64C`), so that -1 is
never decoded and such a checkpoint is `malformed`. -/
inductive CpRead where
  /-- `read` returned another length -/
  | readFailed
  /-- not decodable, not exactly one, or for another port -/
  | malformed
  /-- result of `setLocalCheckpoint` -/
  | set (r : CpRes)
deriving DecidableEq, Repr

/-- What one call of a state function learns. -/
inductive TEnv where
  /-- `getThreadAbortCode` returned this code before the call (SenderThread.cpp:970-978) -/
  | abort (code : ErrCode)
  /-- connect: code of the old socket and result of `connectToReceiver`; `vm`: the abort
  code is `VERSION_MISMATCH` -/
  | connect (sockErr : ErrCode) (code : ErrCode) (vm : Bool)
  | checkpoint (r : CpRead)
  /-- send settings: write worked, file chunks requested -/
  | settings (written chunks : Bool)
  /-- send blocks: size still to be announced / no block left / block sent with this code,
  global checkpoint seen -/
  | mustSendSize
  | noSource
  | block (code : ErrCode) (globalCp : Bool)
  | sizeWritten (ok : Bool)
  | doneWritten (ok : Bool)
  /-- check for abort: got the ABORT command -/
  | gotAbort (yes : Bool)
  /-- read file chunks (SenderThread.cpp:506-623) -/
  | chunksReadError | chunksAbort | chunksWait | chunksAck (received : Bool) | chunksCheckpoint (r : CpRead)
  | chunksBad | chunksDone (ackWritten : Bool)
  /-- read receiver command: error, or the command -/
  | cmdError (code : ErrCode)
  | cmdErr | cmdWait | cmdDone | cmdAbort | cmdHeartBeat | cmdUnknown
  | cmdCheckpoint (r : CpRead)
  | endOfStream (code : ErrCode)
  | waitProcessed
  /-- global checkpoint list: read failed / not decodable / processed -/
  | errReadFailed | errMalformed | errProcessed
  /-- abort command: read failed, or remote code, `ok`: the version can be negotiated -/
  | abortReadFailed
  | abortRead (remote : ErrCode) (versionOk : Bool)
  /-- version mismatch: transfer ends / a version was agreed on -/
  | versionFailed | versionAgreed
deriving DecidableEq, Repr

/-- One iteration of the loop in `start` (SenderThread.cpp:969-980).  `none`: this input
does not belong to this state. -/
def tStep (maxRetries : Int) (s : TState) (e : TEnv) : Option (Except Fault TState) :=
  match s.state, e with
  | .finished, _ => none
  -- start, lines 970-978: any state
  | _, .abort code =>
    if code = eOK then none
    else if code = eVERSION_MISMATCH then
      some (.ok { s with localErr := eABORT, state := .processVersionMismatch })
    else some (.ok { s with localErr := eABORT, state := .finished })
  -- connect, lines 108-149
  | .connect, .connect sockErr code vm =>
    if s.hasSocket && sockErr != eOK then some (.ok { s with localErr := sockErr, state := .finished })
    else if s.noProgress ≥ maxRetries then
      -- line 123 reads `socket_->getPort()`
      if s.hasSocket then some (.ok { s with localErr := eNO_PROGRESS, state := .finished })
      else some (.error .ub)
    else if code = eABORT then
      some (.ok { s with hasSocket := false, localErr := eABORT,
                         state := if vm then .processVersionMismatch else .finished })
    else if code ≠ eOK then some (.ok { s with hasSocket := false, localErr := code, state := .finished })
    else some (.ok { s with
      hasSocket := true
      state := if s.localErr ≠ eOK then .readLocalCheckpoint else .sendSettings
      localErr := eOK
      totalSizeSent := false })
  -- readLocalCheckPoint, lines 151-206
  | .readLocalCheckpoint, .checkpoint .readFailed =>
    some (.ok { s with localErr := eSOCKET_READ_ERROR, noProgress := s.noProgress + 1, state := .connect })
  | .readLocalCheckpoint, .checkpoint .malformed =>
    some (.ok { s with localErr := ePROTOCOL_ERROR, state := .finished })
  | .readLocalCheckpoint, .checkpoint (.set .invalid) =>
    some (.ok { s with localErr := ePROTOCOL_ERROR, state := .finished })
  | .readLocalCheckpoint, .checkpoint (.set .noProgress) =>
    some (.ok { s with noProgress := s.noProgress + 1, state := .sendSettings })
  | .readLocalCheckpoint, .checkpoint (.set .ok) =>
    some (.ok { s with noProgress := 0, state := .sendSettings })
  -- sendSettings, lines 208-245
  | .sendSettings, .settings written chunks =>
    if !written then some (.ok { s with localErr := eSOCKET_WRITE_ERROR, state := .connect })
    else some (.ok { s with state := if chunks then .readFileChunks else .sendBlocks })
  -- sendBlocks, lines 282-314
  | .sendBlocks, .mustSendSize =>
    if s.totalSizeSent then none else some (.ok { s with state := .sendSizeCmd })
  | .sendBlocks, .noSource => some (.ok { s with state := .sendDoneCmd })
  | .sendBlocks, .block code globalCp =>
    -- `threadStats_ += transferStats`
    let s := { s with localErr := moreInteresting s.localErr code }
    if globalCp then some (.ok { s with localErr := eCONN_ERROR, state := .finished })
    else if code ≠ eOK then some (.ok { s with state := .checkForAbort })
    else some (.ok s)
  -- sendSizeCmd, lines 448-464
  | .sendSizeCmd, .sizeWritten ok =>
    if ok then some (.ok { s with totalSizeSent := true, state := .sendBlocks })
    else some (.ok { s with localErr := eSOCKET_WRITE_ERROR, state := .checkForAbort })
  -- sendDoneCmd, lines 466-488
  | .sendDoneCmd, .doneWritten ok =>
    if ok then some (.ok { s with state := .readReceiverCmd })
    else some (.ok { s with localErr := eSOCKET_WRITE_ERROR, state := .checkForAbort })
  -- checkForAbort, lines 490-504
  | .checkForAbort, .gotAbort yes =>
    some (.ok { s with state := if yes then .processAbortCmd else .connect })
  -- readFileChunks, lines 506-623
  | .readFileChunks, .chunksReadError =>
    some (.ok { s with localErr := eSOCKET_READ_ERROR, state := .checkForAbort })
  | .readFileChunks, .chunksAbort => some (.ok { s with state := .processAbortCmd })
  | .readFileChunks, .chunksWait => some (.ok s)
  | .readFileChunks, .chunksAck received =>
    if received then some (.ok { s with state := .sendBlocks })
    else some (.ok { s with localErr := ePROTOCOL_ERROR, state := .finished })
  | .readFileChunks, .chunksCheckpoint .readFailed =>
    some (.ok { s with localErr := eSOCKET_READ_ERROR, state := .connect })
  | .readFileChunks, .chunksCheckpoint .malformed =>
    some (.ok { s with localErr := ePROTOCOL_ERROR, state := .finished })
  | .readFileChunks, .chunksCheckpoint (.set _) => some (.ok s)
  | .readFileChunks, .chunksBad => some (.ok { s with localErr := ePROTOCOL_ERROR, state := .finished })
  | .readFileChunks, .chunksDone ok =>
    if ok then some (.ok { s with state := .sendBlocks })
    else some (.ok { s with localErr := eSOCKET_WRITE_ERROR, state := .checkForAbort })
  -- readReceiverCmd, lines 685-723
  | .readReceiverCmd, .cmdError code =>
    if code = eOK then none else some (.ok { s with localErr := code, state := .connect })
  | .readReceiverCmd, .cmdErr => some (.ok { s with state := .processErrCmd })
  | .readReceiverCmd, .cmdWait => some (.ok { s with state := .processWaitCmd })
  | .readReceiverCmd, .cmdDone => some (.ok { s with state := .processDoneCmd })
  | .readReceiverCmd, .cmdAbort => some (.ok { s with state := .processAbortCmd })
  | .readReceiverCmd, .cmdHeartBeat => some (.ok s)
  | .readReceiverCmd, .cmdUnknown => some (.ok { s with localErr := ePROTOCOL_ERROR, state := .finished })
  | .readReceiverCmd, .cmdCheckpoint .readFailed =>
    some (.ok { s with localErr := eSOCKET_READ_ERROR, state := .connect })
  | .readReceiverCmd, .cmdCheckpoint .malformed =>
    some (.ok { s with localErr := ePROTOCOL_ERROR, state := .finished })
  | .readReceiverCmd, .cmdCheckpoint (.set _) => some (.ok s)
  -- processDoneCmd, lines 759-779
  | .processDoneCmd, .endOfStream code =>
    if code = eOK then some (.ok { s with state := .finished })
    else some (.ok { s with localErr := code, state := .connect })
  -- processWaitCmd, lines 781-788
  | .processWaitCmd, .waitProcessed => some (.ok { s with state := .readReceiverCmd })
  -- processErrCmd, lines 790-827
  | .processErrCmd, .errReadFailed => some (.ok { s with localErr := eSOCKET_READ_ERROR, state := .connect })
  | .processErrCmd, .errMalformed => some (.ok { s with localErr := ePROTOCOL_ERROR, state := .finished })
  | .processErrCmd, .errProcessed => some (.ok { s with state := .sendBlocks })
  -- processAbortCmd, lines 829-867
  | .processAbortCmd, .abortReadFailed => some (.ok { s with localErr := eABORT, state := .finished })
  | .processAbortCmd, .abortRead remote versionOk =>
    if remote = eVERSION_MISMATCH then
      if versionOk then
        some (.ok { s with localErr := eABORT, remoteErr := remote, state := .processVersionMismatch })
      else some (.ok { s with localErr := eABORT, remoteErr := eVERSION_INCOMPATIBLE, state := .finished })
    else some (.ok { s with localErr := eABORT, remoteErr := remote, state := .finished })
  -- processVersionMismatch, lines 869-942
  | .processVersionMismatch, .versionFailed =>
    if s.localErr = eABORT then some (.ok { s with state := .finished }) else some (.error .check)
  | .processVersionMismatch, .versionAgreed =>
    if s.localErr = eABORT then some (.ok { s with remoteErr := eOK, state := .connect })
    else some (.error .check)
  | _, _ => none

/-- A run of the loop (SenderThread.cpp:969-980). -/
def tRun (maxRetries : Int) : TState → List TEnv → Option (Except Fault TState)
  | s, [] => some (.ok s)
  | s, e :: es =>
    match tStep maxRetries s e with
    | none => none
    | some (.error f) => some (.error f)
    | some (.ok s') => tRun maxRetries s' es

end Wdt
