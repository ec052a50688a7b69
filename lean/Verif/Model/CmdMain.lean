import Verif.Model.CmdLine
import Verif.Model.ErrorCode
/-
Model of the program `wdt` (/repo/wdtCmdLine.cpp:164-387): what it does, and its exit status.
What senders and receivers answer is an argument (`CmdWorld`), they are modelled elsewhere.
-/
namespace Wdt

/-- What parsing the flags ends with (wdtCmdLine.cpp:191-204): all well; `--version` and the like (gflags asks to
exit with 0); `--help`; an unknown or ill-formed flag. -/
inductive FlagEnd where
  | ok
  | version
  | help
  | bad
deriving DecidableEq, Repr

/-- The command line (wdtCmdLine.cpp:33-97).  `args`: arguments that are not flags; `stdin`: first line of the standard input.
`exitOnBad`, `printOptions`, `parseLog`, `destination`, `url` (`-connection_url`), `fork`, `daemon`, `treatFewer`: flags. -/
structure CmdArgs where
  flags : FlagEnd := .ok
  exitOnBad : Bool := true
  args : List Bytes := []
  stdin : Bytes := []
  url : Bytes := []
  destination : Bytes := []
  printOptions : Bool := false
  parseLog : Bool := false
  fork : Bool := false
  daemon : Bool := false
  treatFewer : Bool := false
  manifest : Bool := false
deriving DecidableEq, Repr

/-- What `fork` returns: failure, in the parent, in the child. -/
inductive ForkEnd where
  | failed
  | parent
  | child
deriving DecidableEq, Repr

/-- What the parts answer.  `logOk`: `parseAndPrint`; `urlCode`: of the request made from a url;
`recvInit`: of `Receiver::init`; `forked`; `recvStart`: of `transferAsync`; `recvCode`: of the report of the receiver;
`forever`: of `runForever`; `manifest`: the list of files, `none` if the text is refused (Model/CmdLine);
`sendCode`: of `wdtSend` (Model/ResourceController). -/
structure CmdWorld where
  logOk : Bool := true
  urlCode : Bytes → ErrCode := fun _ => eOK
  recvInit : ErrCode := eOK
  forked : ForkEnd := .child
  recvStart : ErrCode := eOK
  recvCode : ErrCode := eOK
  forever : ErrCode := eERROR
  manifest : Option (List MEntry) := some []
  sendCode : ErrCode := eOK

/-- What the program did.  `info`: printed what was asked for; `refused`: did nothing because of the command line,
or of the url; `crashed`: `LOG(FATAL)`; `parsedLog`; `noReceiver`: the receiver could not be set up; `detached`: it left the receiver to another process,
or could not; `received`: it was a receiver; `sent`: a sender, with this url or to this host. -/
inductive CmdDid where
  | info
  | refused
  | crashed
  | parsedLog
  | noReceiver
  | detached
  | received
  | sent (url host : Bytes)
deriving DecidableEq, Repr

/-- Exit status of the process: the low 8 bits. -/
def exitStatus (code : ErrCode) : Nat := code % 256

/-- The receiver (wdtCmdLine.cpp:305-359). -/
def CmdArgs.receive (c : CmdArgs) (w : CmdWorld) : CmdDid × Nat :=
  if w.recvInit = eFEWER_PORTS ∧ c.treatFewer = true then (.noReceiver, exitStatus eFEWER_PORTS)
  else if w.recvInit ≠ eFEWER_PORTS ∧ w.recvInit ≠ eOK then (.noReceiver, exitStatus w.recvInit)
  else if c.fork = true ∧ w.forked = .failed then (.detached, 1)
  else if c.fork = true ∧ w.forked = .parent then (.detached, 0)
  else if c.daemon then (.received, exitStatus w.forever)
  else if w.recvStart = eOK then (.received, exitStatus w.recvCode)
  else (.received, exitStatus w.recvStart)

/-- The sender (wdtCmdLine.cpp:360-378). -/
def CmdArgs.send (c : CmdArgs) (w : CmdWorld) (url : Bytes) : CmdDid × Nat :=
  if c.manifest = true ∧ w.manifest = none then (.crashed, 134)
  else (.sent url c.destination, exitStatus w.sendCode)

/-- After the flags (wdtCmdLine.cpp:225-387).  `bad`: there was a bad flag. -/
def CmdArgs.go (c : CmdArgs) (w : CmdWorld) (bad : Bool) : CmdDid × Nat :=
  let fromStdin := !bad && c.args.length == 1
  if fromStdin && c.stdin == [] then (.refused, exitStatus eURI_PARSE_ERROR)
  else
    let url := if fromStdin then c.stdin else c.url
    if c.printOptions then (.info, 0)
    else if c.parseLog then (.parsedLog, if w.logOk then 0 else exitStatus eERROR)
    else if url ≠ [] ∧ w.urlCode url ≠ eOK then (.refused, exitStatus eERROR)
    else if c.destination = [] ∧ url = [] then c.receive w
    else c.send w url

/-- `main` (wdtCmdLine.cpp:164-387): what it did and its exit status. -/
def CmdArgs.main (c : CmdArgs) (w : CmdWorld) : CmdDid × Nat :=
  match c.flags with
  | .version => (.info, 0)
  | .help => (.info, 0)
  | .bad => if c.exitOnBad then (.refused, 1) else c.go w true
  | .ok => if c.args.length > 1 ∨ (c.args.length = 1 ∧ c.args ≠ [[45]]) then (.refused, 1) else c.go w false

end Wdt
