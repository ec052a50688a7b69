import Verif.Model.ErrorCode
import Verif.Model.Serial
/-
Model of transfer statistics and final reports (/repo/Reporting.h:55-360,
/repo/Reporting.cpp:23-224).
-/
namespace Wdt

/-- `TransferStats` (Reporting.h:58-104).  Encryption type and TLS flag are kept, the
lock is not. -/
structure TStats where
  headerBytes : Int := 0
  dataBytes : Int := 0
  effHeaderBytes : Int := 0
  effDataBytes : Int := 0
  numFiles : Int := 0
  numBlocks : Int := 0
  failedAttempts : Int := 0
  /-- announced by the sender; -1: nothing announced -/
  numBlocksSend : Int := -1
  totalSenderBytes : Int := -1
  localErr : ErrCode := eOK
  remoteErr : ErrCode := eOK
  id : Bytes := []
  encryptionType : Nat := 0
  tls : Bool := false
deriving DecidableEq, Repr

/-- `getErrorCode` (Reporting.h:226-230) -/
def TStats.errorCode (s : TStats) : ErrCode := moreInteresting s.localErr s.remoteErr

/-- `TransferStats::operator+=` (Reporting.cpp:23-63) -/
def TStats.add (a b : TStats) : TStats :=
  let mismatch1 := decide (a.numBlocksSend ≠ -1 ∧ b.numBlocksSend ≠ -1 ∧ a.numBlocksSend ≠ b.numBlocksSend)
  let mismatch2 :=
    decide (a.totalSenderBytes ≠ -1 ∧ b.totalSenderBytes ≠ -1 ∧ a.totalSenderBytes ≠ b.totalSenderBytes)
  let code := if mismatch1 || mismatch2 then eERROR else a.localErr
  let bOk := decide (b.localErr = eOK ∧ b.remoteErr = eOK)
  { headerBytes := a.headerBytes + b.headerBytes
    dataBytes := a.dataBytes + b.dataBytes
    effHeaderBytes := a.effHeaderBytes + b.effHeaderBytes
    effDataBytes := a.effDataBytes + b.effDataBytes
    numFiles := a.numFiles + b.numFiles
    numBlocks := a.numBlocks + b.numBlocks
    failedAttempts := a.failedAttempts + b.failedAttempts
    numBlocksSend := if a.numBlocksSend = -1 then b.numBlocksSend else a.numBlocksSend
    totalSenderBytes := if a.totalSenderBytes = -1 then b.totalSenderBytes else a.totalSenderBytes
    localErr := moreInteresting code b.localErr
    remoteErr := moreInteresting a.remoteErr b.remoteErr
    id := a.id
    encryptionType := if bOk then b.encryptionType else a.encryptionType
    tls := if bOk then b.tls else a.tls }

/-- The summing loop (Reporting.cpp:118-120, Receiver.cpp:332-336). -/
def sumStats (l : List TStats) : TStats := l.foldl TStats.add {}

/-- Inputs of the sender's final report (Reporting.cpp:102-117). -/
structure SenderInput where
  failedSources : List TStats
  threads : List TStats
  failedDirs : List Bytes
  totalFileSize : Int
  numDiscovered : Int
deriving DecidableEq, Repr

/-- Summary of a sender's final report (Reporting.cpp:118-167).  `setErrorCode` sets the
local and remote codes to the result (Reporting.h:438-442). -/
def senderReport (i : SenderInput) : TStats :=
  let summary := sumStats i.threads
  let atLeastOneOk := i.threads.any fun s => s.errorCode == eOK
  let code1 := if i.failedDirs.isEmpty then summary.errorCode
    else moreInteresting summary.errorCode eBYTE_SOURCE_READ_ERROR
  let code2 := i.failedSources.foldl (fun c s => moreInteresting c s.errorCode) code1
  let possiblyOk := i.failedDirs.isEmpty && i.failedSources.isEmpty
  let code3 :=
    if summary.effDataBytes ≠ i.totalFileSize then (if code2 = eOK then eERROR else code2)
    else if code2 ≠ eOK && possiblyOk && atLeastOneOk then eOK else code2
  { summary with
    localErr := code3
    remoteErr := code3
    numFiles := i.numDiscovered - (i.failedSources.map TStats.id).eraseDups.length }

/-- Summary of a receiver's final report (Reporting.cpp:193-224). -/
def receiverReport (threads : List TStats) : TStats :=
  let s := sumStats threads
  let code :=
    if s.numBlocksSend = -1 ∨ s.numBlocksSend ≠ s.numBlocks then moreInteresting s.localErr eERROR
    else if s.totalSenderBytes ≠ -1 ∧ s.totalSenderBytes ≠ s.effDataBytes then moreInteresting s.localErr eERROR
    else if s.localErr ≠ eOK ∧ s.localErr ≠ eENCRYPTION_ERROR then eOK
    else s.localErr
  { s with localErr := code }

end Wdt
