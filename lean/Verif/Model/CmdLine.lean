import Mathlib.Data.Rat.Defs
import Mathlib.Algebra.Order.Ring.Unbundled.Rat
import Verif.Model.Uri
/-
Model of the options and of the command line: `WdtOptions::modifyOptions`, block and buffer sizes,
the manifest.

Simplifications.  `double` options are rationals; the names of options are Lean strings.
-/
namespace Wdt

/-- The options that `modifyOptions` reads or writes (WdtOptions.h:104-109, 196, ...) and the buffer
size. -/
structure Opts where
  startPort : Int := 22356
  numPorts : Int := 8
  staticPorts : Bool := false
  blockSizeMb : ℚ := 16
  disablePrealloc : Bool := false
  resumeDirTree : Bool := false
  bufferSize : Int := 262144
deriving DecidableEq, Repr

/-- `CHANGE_IF_NOT_SPECIFIED` (WdtOptions.cpp:23-29): `value` unless the user has given the option. -/
def changeIf {α : Type} (user : List String) (name : String) (old value : α) : α :=
  if user.contains name then old else value

/-- `modifyOptions` (WdtOptions.cpp:34-58); `user`: the options given by the user. -/
def modifyOptions (o : Opts) (optionType : String) (user : List String) : Opts :=
  if optionType = "disk" then
    { o with
      numPorts := changeIf user "num_ports" o.numPorts 3
      blockSizeMb := changeIf user "block_size_mbytes" o.blockSizeMb (-1)
      disablePrealloc := changeIf user "disable_preallocation" o.disablePrealloc true
      resumeDirTree := changeIf user "resume_using_dir_tree" o.resumeDirTree true }
  else if user.contains "start_port" && !o.staticPorts then { o with staticPorts := true }
  else o

/-- Conversion of a `double` to `int64_t`: towards zero; out of range is undefined. -/
def truncI64 (x : ℚ) : Except Fault Int :=
  let t : Int := if 0 ≤ x then x.floor else -(-x).floor
  if -9223372036854775808 ≤ t ∧ t ≤ 9223372036854775807 then .ok t else .error .ub

/-- Block size in bytes that the queue uses (Sender.cpp:302, DirectorySourceQueue.cpp:78-80, 491);
`none`: files are not split (DirectorySourceQueue.cpp:492-493). -/
def queueBlockSize (o : Opts) : Except Fault (Option Int) := do
  let mb ← truncI64 o.blockSizeMb
  if mb * 1048576 > 9223372036854775807 ∨ mb * 1048576 < -9223372036854775808 then .error .ub
  else pure (if mb * 1048576 > 0 then some (mb * 1048576) else none)

/-- What the sender tells the receiver: `blockModeDisabled` (SenderThread.cpp:232). -/
def toldDisabled (o : Opts) : Bool := decide (o.blockSizeMb ≤ 0)

/-- `checkAndUpdateBufferSize` (WdtBase.cpp:118-135): at least `kMaxHeader` (Protocol.h:305), a multiple of
`kDiskBlockSize`; the result is stored in an `int32_t`. -/
def updateBufferSize (kMaxHeader kDiskBlock : Int) (size : Int) : Int :=
  let b := if size < kMaxHeader then kMaxHeader else size
  let b := if b % kDiskBlock ≠ 0 then ((b + kDiskBlock - 1) / kDiskBlock) * kDiskBlock else b
  (b + 2147483648) % 4294967296 - 2147483648

/-- Port on which receiver thread `i` tries to listen: `WdtTransferRequest` gives the threads consecutive
ports (WdtTransferRequest.cpp:289-299), which `ServerSocket::listenInternal` replaces by any free one
(`none`) unless `static_ports` is set (ServerSocket.cpp:136-143). -/
def listenPort (o : Opts) (i : Nat) : Option Int := if o.staticPorts then some (o.startPort + i) else none

/-- Pieces of a string between delimiters. -/
def pieces (d : UInt8) : Bytes → List Bytes
  | [] => [[]]
  | c :: s =>
    if c = d then [] :: pieces d s
    else match pieces d s with
      | p :: ps => (c :: p) :: ps
      | [] => [[c]]

/-- `folly::split` with `ignoreEmpty` (wdtCmdLine.cpp:148). -/
def splitFields (d : UInt8) (s : Bytes) : List Bytes := (pieces d s).filter (· ≠ [])

/-- Lines that `std::getline` returns: what follows the last newline counts only if there is
something. -/
def getLines (s : Bytes) : List Bytes :=
  let l := pieces 10 s
  if l.getLast? = some [] then l.dropLast else l

/-- `WdtFileInfo` made from a line (WdtTransferRequest.h:28-43). -/
structure MEntry where
  name : Bytes
  size : Int
  odirect : Bool
deriving DecidableEq, Repr

/-- One line of a manifest (wdtCmdLine.cpp:147-155).  `none`: the process ends, because of `FATAL` or
because `folly::to` throws and nobody catches it. -/
def readLine (dflt : Bool) (line : Bytes) : Option MEntry :=
  match splitFields 9 line with
  | [n] => some ⟨n, -1, dflt⟩
  | [n, s] => (strI64 s).map fun k => ⟨n, k, dflt⟩
  | [n, s, d] =>
    match strI64 s, strBool d with
    | some k, some b => some ⟨n, k, b⟩
    | _, _ => none
  | _ => none

/-- `readManifest` (wdtCmdLine.cpp:143-158). -/
def readManifest (dflt : Bool) (file : Bytes) : Option (List MEntry) := (getLines file).mapM (readLine dflt)

/-- The list of files that `main` sends with `-manifest` (wdtCmdLine.cpp:361-373).  `file`: contents of the
manifest, `none` if it cannot be opened; then the stream is in a failed state, `std::getline` returns
no line and nothing is checked. -/
def manifestFiles (dflt : Bool) (file : Option Bytes) : Option (List MEntry) :=
  match file with
  | some text => readManifest dflt text
  | none => some []

end Wdt
