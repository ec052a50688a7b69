import Verif.Model.Uri
import Verif.Model.Sockets
/-
Setting up a transfer: `Sender::init`, `Receiver::init`, the listening sockets of the receiver
threads, and what the command line program makes of the result (WdtBase.cpp:85-96, 142-158,
Sender.cpp:48-79, Receiver.cpp:114-237, ReceiverThread.cpp:108-133, 1014-1050,
wdtCmdLine.cpp:303-360).
-/
namespace Wdt

/-- Conversion of an `int64_t` to `int`: the low 32 bits, in two's complement (WdtBase.cpp:86). -/
def toI32 (v : Int) : Int := (v + 2147483648) % 4294967296 - 2147483648

/-- `WdtBase::negotiateProtocol` (WdtBase.cpp:85-96), `own` being `Protocol::protocol_version`. -/
def negotiateReq (own : Int) (r : TransferReq) : Except Fault TransferReq :=
  let p := toI32 r.protocolVersion
  if p ≤ 0 then .error .check
  else .ok { r with protocolVersion := negotiateProtocol p own }

/-- `WdtBase::validateTransferRequest` (WdtBase.cpp:142-158); the code is stored in the request. -/
def validateReq (r : TransferReq) : TransferReq :=
  if r.errorCode ≠ eOK then r
  else if r.directory = [] ∨ r.protocolVersion < 0 ∨ r.ports = [] then { r with errorCode := eINVALID_REQUEST }
  else r

/-- `Sender::validateTransferRequest` (Sender.cpp:48-59). -/
def validateSender (r : TransferReq) : TransferReq :=
  let r := validateReq r
  if r.errorCode = eOK ∧ r.hostName = [] then { r with errorCode := eINVALID_REQUEST } else r

/-- `Sender::init` (Sender.cpp:61-77). -/
def senderInit (own : Int) (r : TransferReq) : Except Fault TransferReq :=
  match negotiateReq own r with
  | .error f => .error f
  | .ok r => .ok (validateSender r)

/-! ### Receiver -/

/-- The attempts to listen before the last one, at most `n` (ReceiverThread.cpp:1037-1042). -/
def listenTries (h : LHost) (static : Bool) : Nat → LSock → LSock
  | 0, s => s
  | n + 1, s =>
    let (c, s') := listenSock h static s
    if c = eOK then s' else listenTries h static n s'

/-- `ReceiverThread::init` (ReceiverThread.cpp:1014-1050) with the default sockets.  The port of a
thread is an `int32_t`; here negative ones count as 0. -/
def threadInit (h : LHost) (static : Bool) (maxRetries : Int) (port : Int) : ErrCode × LSock :=
  let s := listenTries h static maxRetries.toNat { port := port.toNat }
  let (c, s) := listenSock h static s
  (if c = eOK then eOK else eERROR, s)

/-- State LISTEN of a receiver thread (ReceiverThread.cpp:108-133): further attempts; an error that
does not go away ends the thread (`none`). -/
def lateListen (h : LHost) (static : Bool) : Nat → LSock → Option LSock
  | 0, s =>
    let (c, s') := listenSock h static s
    if c = eOK then some s' else none
  | n + 1, s =>
    let (c, s') := listenSock h static s
    if c = eOK then some s'
    else if c = eCONN_ERROR then none
    else lateListen h static n s'

/-- Options that matter for `init` (WdtOptions.h:104-119, 400; `encType`: 0 none, 1 and 2 the
ciphers, after `parseEncryptionType`, EncryptionUtils.cpp:52-64). -/
structure RecvOpts where
  resume : Bool := false
  skipWrites : Bool := false
  dirTree : Bool := false
  prealloc : Bool := true
  encType : Int := 2
  ivMb : Int := 32768
  staticPorts : Bool := false
  maxRetries : Int := 20
deriving DecidableEq, Repr

/-- What the machine does: the transfer id that is generated (not empty, WdtBase.cpp:190-200); can
the destination directory be made; result of opening the log; random key of 16 bytes, if there is
one (EncryptionUtils.cpp:181-193); host name, if there is one; the network for each thread. -/
structure RecvEnv where
  newId : Bytes
  mkdir : Bool := true
  logCode : ErrCode := eOK
  key : Option Bytes
  host : Option Bytes
  net : Nat → LHost

/-- The steps of `Receiver::init` before there are threads (Receiver.cpp:114-193).  `true`: goes on.
The result of making the directory is not looked at (FileCreator.h:49, `e.mkdir` is unused).  What
is read from the log is in LogSession. -/
def recvPrepare (own : Int) (o : RecvOpts) (e : RecvEnv) (r : TransferReq) : Except Fault (TransferReq × Bool) :=
  let r := validateReq r
  if r.errorCode ≠ eOK then .ok (r, false)
  else
    let r : TransferReq := if r.transferId = [] then { r with transferId := e.newId } else r
    match negotiateReq own r with
    | .error f => .error f
    | .ok r =>
      let r : TransferReq := { r with dr := o.resume }
      if o.resume ∧ (o.skipWrites ∨ (o.dirTree ∧ o.prealloc)) then .error .check
      else if o.resume ∧ e.logCode ≠ eOK then .ok ({ r with errorCode := e.logCode }, false)
      else
        let iv := o.ivMb * 1048576
        if o.encType ≠ 0 ∧ r.protocolVersion ≥ 23 then
          if r.enc.type ≠ 0 then .ok ({ r with ivChange := iv }, true)
          else match e.key with
            | some k => .ok ({ r with enc := ⟨o.encType, k⟩, ivChange := iv }, true)
            | none => .ok ({ r with errorCode := eENCRYPTION_ERROR }, false)
        else .ok ({ r with enc := {}, ivChange := iv }, true)

/-- The threads, thread `i` for the `i`-th port (Receiver.cpp:194-207). -/
def initThreads (o : RecvOpts) (e : RecvEnv) : Nat → List Int → List (ErrCode × LSock)
  | _, [] => []
  | i, p :: ps => threadInit (e.net i) o.staticPorts o.maxRetries p :: initThreads o e (i + 1) ps

/-- Error code from the number of ports that can be listened on (Receiver.cpp:210-218). -/
def portsCode (ths : List (ErrCode × LSock)) : ErrCode :=
  let good := (ths.filter fun t => t.1 = eOK).length
  if good ≠ ths.length then if good = 0 then eERROR else eFEWER_PORTS else eOK

/-- `Receiver::init` (Receiver.cpp:114-237): the request returned and the sockets of the threads. -/
def receiverInit (own : Int) (o : RecvOpts) (e : RecvEnv) (r : TransferReq) : Except Fault (TransferReq × List LSock) :=
  match recvPrepare own o e r with
  | .error f => .error f
  | .ok (r, false) => .ok (r, [])
  | .ok (r, true) =>
    let ths : List (ErrCode × LSock) := initThreads o e 0 r.ports
    let code := portsCode ths
    let r : TransferReq := { r with ports := ths.map fun t => (t.2.port : Int) }
    let (host, code) :=
      if r.hostName ≠ [] then (r.hostName, code)
      else match e.host with
        | some h => (h, code)
        | none => ([], eERROR)
    .ok ({ r with hostName := host, errorCode := code }, ths.map (·.2))

/-! ### Command line -/

/-- What the receiver program does once `init` has returned: it ends with an error code, or prints a
line (`none`: the name of an error instead of a url) and receives. -/
inductive CmdOut where
  | exits (code : ErrCode)
  | receives (printed : Option Bytes)
deriving DecidableEq, Repr

/-- wdtCmdLine.cpp:316-360, `treatFewer` being `treat_fewer_port_as_error`. -/
def cmdReceiver (treatFewer : Bool) (r : TransferReq) : Except Fault CmdOut :=
  if r.errorCode = eFEWER_PORTS ∧ treatFewer = true then .ok (.exits eFEWER_PORTS)
  else if r.errorCode ≠ eFEWER_PORTS ∧ r.errorCode ≠ eOK then .ok (.exits r.errorCode)
  else match genUrlWithSecret r with
    | .error f => .error f
    | .ok u => .ok (.receives u)

end Wdt
