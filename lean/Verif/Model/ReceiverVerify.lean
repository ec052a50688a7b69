import Verif.Model.Protocol
/-
Model of what a receiver thread counts as received (/repo/ReceiverThread.cpp:430-689,
878-906): blocks go into the checkpoint, the transfer log and the statistics when they are
complete, or only when an encryption tag behind them was verified.  The bytes themselves
are in Model/ReceiverStream and Model/EncSocket; here a block is known by the position of
its end in the decrypted bytes of its connection.
-/
namespace Wdt

/-- A received block: what is logged of it, and `stop`: number of decrypted bytes of the
connection up to its end. -/
structure RBlock where
  seqId : Int
  offset : Int
  dataSize : Int
  toBeDeleted : Bool
  stop : Nat
deriving DecidableEq, Repr

/-- An entry of the transfer log. -/
inductive RvLog where
  | blockWrite (seqId offset dataSize : Int)
  | invalidate (seqId : Int)
deriving DecidableEq, Repr

/-- One call of `markBlockVerified`, with what was in force: the number of the connection,
whether its encryption has tags, whether blocks come with a checksum. -/
structure RvMark where
  block : RBlock
  conn : Nat
  tagged : Bool
  footer : Bool
deriving DecidableEq, Repr

/-- A receiver thread.  `conn`: number of the connection; `tagged`:
`encryptionTypeToTagLen(socket_->getEncryptionType()) ≠ 0`; `footer`: `footerType_` is
CHECKSUM_FOOTER; `decrypted`: bytes decrypted on this connection; `given`: of these, handed
to the thread; `waiting`: `blocksWaitingVerification_`; `numBlocks` and `last`: of
`checkpoint_`; `effective`: data bytes of `addEffectiveBytes`; `log`: what was written to the
transfer log.  For stating properties: `marks`: the calls of `markBlockVerified`; `partials`:
the calls of `setLastBlockDetails` with what was in force and the number of bytes; `tags`: connection and position of the tags that were
verified. -/
structure RvState where
  logging : Bool
  conn : Nat := 0
  tagged : Bool
  footer : Bool := false
  decrypted : Nat := 0
  given : Nat := 0
  waiting : List RBlock := []
  numBlocks : Nat := 0
  last : Option (Int × Int × Int) := none
  effective : Int := 0
  log : List RvLog := []
  marks : List RvMark := []
  partials : List (Bool × Bool × Int) := []
  tags : List (Nat × Nat) := []
deriving DecidableEq, Repr

/-- What `markBlockVerified` logs (ReceiverThread.cpp:672-681). -/
def RBlock.logEntry (b : RBlock) : RvLog :=
  if b.toBeDeleted then .invalidate b.seqId else .blockWrite b.seqId b.offset b.dataSize

/-- `markBlockVerified` (ReceiverThread.cpp:668-682). -/
def RvState.mark (s : RvState) (b : RBlock) : RvState :=
  { s with
    effective := s.effective + b.dataSize
    numBlocks := s.numBlocks + 1
    log := if s.logging then s.log ++ [b.logEntry] else s.log
    marks := s.marks ++ [⟨b, s.conn, s.tagged, s.footer⟩] }

/-- `markReceivedBlocksVerified` (ReceiverThread.cpp:684-689). -/
def RvState.markWaiting (s : RvState) : RvState :=
  { s.waiting.foldl RvState.mark s with waiting := [] }

/-- What happens to the thread. -/
inductive RvEv where
  /-- `readAndDecrypt` decrypts bytes (WdtSocket.cpp:236-251) -/
  | decrypt (n : Nat)
  /-- a tag in the stream is read and verified, which calls
  `tagVerificationSuccessCallback_` (WdtSocket.cpp:279-293) -/
  | tagOk
  /-- `read` returns bytes to the thread -/
  | give (n : Nat)
  /-- SETTINGS says whether checksums follow (ReceiverThread.cpp:353-357) -/
  | settings (checksum : Bool)
  /-- the beginning of `processFileCmd` (ReceiverThread.cpp:394) -/
  | fileCmd
  /-- the end of `processFileCmd`: all data of the block was read and written, and the
  checksum was right if there is one (ReceiverThread.cpp:593-666) -/
  | blockDone (b : RBlock)
  /-- `processFileCmd` returns early with `written` bytes of the block written
  (ReceiverThread.cpp:482-491) -/
  | blockBroken (b : RBlock) (written : Int)
  /-- `sendDoneCmd` after `expectEndOfStream` returned OK, which for an encryption with
  tags means that the last tag was verified (ReceiverThread.cpp:896-902) -/
  | endOfStream
  /-- `acceptWithTimeout` accepts another connection (ReceiverThread.cpp:204-224); `plain`:
  the peer does not encrypt, and that is allowed (WdtSocket.cpp:320-333) -/
  | accept (plain : Bool)
deriving DecidableEq, Repr

/-- One step; `none`: it cannot happen. -/
def rvStep (s : RvState) : RvEv → Option RvState
  | .decrypt n => some { s with decrypted := s.decrypted + n }
  | .tagOk => if s.tagged then
      some (RvState.markWaiting { s with tags := s.tags ++ [(s.conn, s.decrypted)] })
    else none
  | .give n => if s.given + n ≤ s.decrypted then some { s with given := s.given + n } else none
  | .settings c => some { s with footer := c }
  | .fileCmd => some { s with last := none }
  | .blockDone b => if b.stop ≤ s.given then
      some (if s.footer then s.mark b else if s.tagged then { s with waiting := s.waiting ++ [b] } else s.mark b)
    else none
  | .blockBroken b w => some (if !s.tagged && !s.footer then
      { s with last := some (b.seqId, b.offset, w), effective := s.effective + w, partials := s.partials ++ [(s.tagged, s.footer, w)] }
    else s)
  | .endOfStream => some (RvState.markWaiting
      (if s.tagged then { s with tags := s.tags ++ [(s.conn, s.decrypted)] } else s))
  | .accept plain => some { s with
      waiting := [], conn := s.conn + 1, decrypted := 0, given := 0, tagged := s.tagged && !plain }

/-- A history. -/
def rvRun : RvState → List RvEv → Option RvState
  | s, [] => some s
  | s, e :: es => match rvStep s e with
    | some s' => rvRun s' es
    | none => none

end Wdt
