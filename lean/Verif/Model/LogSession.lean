import Verif.Model.TransferLog
/-
Model of the receiver's use of the transfer log over the life of several receiver
processes: the operations of `TransferLogManager` that write the log
(/repo/util/TransferLogManager.cpp:240-694) and the places in `Receiver` that call them
(/repo/Receiver.cpp:49-90, 139-158, 489-556).  Every write to the log may write any
number of bytes, and the process may be killed between any two operations.

Not modelled: failures of `open`, `flock`, `fstat` and `lseek`; `checkLog`, which ends the
process if the log was replaced by another file (:314-338); `fsync` (the file system is
assumed to keep what was written); the data race on `fd_` and `headerWritten_` (the
operations below are atomic).
-/
namespace Wdt

/-- Options that matter here (/repo/util/WdtOptions.h):
`disable_sender_verification_during_resumption`, `keep_transfer_log`,
`enable_transfer_log_compaction`.  `resume_using_dir_tree` is `LogEnv.dirTree`. -/
structure LogOpts where
  verifyOff : Bool := false
  keepLog : Bool := false
  compact : Bool := false
deriving DecidableEq, Repr

/-- The log file and the state of the receiver process (TransferLogManager.h:290-316,
Receiver.h `fileChunksInfo_`).
`up`: a process is running; `aborted`: the last process ended in a failed `WDT_CHECK`, an
uncaught exception or undefined behaviour; `fd`: `fd_ >= 0`; `writer`: the writer thread
is running; `pending`: `entries_`, kept as entries instead of as encoded strings;
`claims`: `fileChunksInfo_`. -/
structure LogMgr where
  log : Bytes := []
  up : Bool := false
  aborted : Bool := false
  fd : Bool := false
  env : LogEnv
  opts : LogOpts := {}
  status : ErrCode := eOK
  headerWritten : Bool := false
  writer : Bool := false
  pending : List LogEntry := []
  senderIp : Bytes := []
  claims : List FileChunksInfo := []

/-- The encoded entry; nothing if encoding fails. -/
def recBytes (e : LogEntry) : Bytes :=
  match e.record with
  | .ok b => b
  | .error _ => []

/-- `written == size` when `write` writes at most `w` bytes.  If the entry could not be
encoded, `size` is -1 and the call fails. -/
def fullWrite (e : LogEntry) (w : Nat) : Bool :=
  match e.record with
  | .ok b => decide (b.length ≤ w)
  | .error _ => false

/-- `std::string` buffer of `writeEntriesToDiskNoLock` (TransferLogManager.cpp:367-376). -/
def pendingBytes (es : List LogEntry) : Bytes := es.flatMap recBytes

/-- A failed check: the process ends. -/
def LogMgr.abort (s : LogMgr) : LogMgr := { s with up := false, aborted := true }

/-- One round of `threadProcWriteEntriesToDisk` (TransferLogManager.cpp:389-418), writing at
most `w` bytes.  After a short write the thread is gone and what it had taken is lost. -/
def LogMgr.flush (w : Nat) (s : LogMgr) : LogMgr :=
  if s.writer then
    { s with log := s.log ++ (pendingBytes s.pending).take w, pending := [], writer := decide ((pendingBytes s.pending).length ≤ w) }
  else s

/-- `closeLog` (TransferLogManager.cpp:353-361) with `shutdownThread` (:302-312): the writer
thread, if it runs, does a last round and ends. -/
def LogMgr.closeLog (w : Nat) (s : LogMgr) : LogMgr :=
  if s.fd then
    let s1 := if s.env.dirTree then s else { s.flush w with writer := false }
    { s1 with fd := false }
  else s

/-- `invalidateDirectory` (TransferLogManager.cpp:452-470).  If the write is short the log
is closed and `fsyncLog` (:445-450), which requires it to be open, ends the process. -/
def LogMgr.invalidateDirectory (ts : Int) (w wc : Nat) (s : LogMgr) : LogMgr :=
  if s.fd then
    let e := LogEntry.dirInvalidation ts
    let s1 := { s with status := eINCONSISTENT_DIRECTORY, log := s.log ++ (recBytes e).take w }
    if fullWrite e w then s1 else (s1.closeLog wc).abort
  else s

/-- `writeLogHeader` (TransferLogManager.cpp:472-493). -/
def LogMgr.writeLogHeader (ts : Int) (w wc : Nat) (s : LogMgr) : LogMgr :=
  if s.fd then
    let e := LogEntry.header ts WLOG_VERSION s.env.recoveryId s.senderIp s.env.config
    let s1 := { s with log := s.log ++ (recBytes e).take w }
    if fullWrite e w then { s1 with status := eOK, headerWritten := true } else s1.closeLog wc
  else s

/-- `addFileCreationEntry`, `addBlockWriteEntry`, `addFileResizeEntry`,
`addFileInvalidationEntry` (TransferLogManager.cpp:495-548): the first three do nothing
before the header is written.  An entry that cannot be encoded has length -1, and making
a string of it throws. -/
def LogMgr.add (e : LogEntry) (s : LogMgr) : LogMgr :=
  let wanted := match e with
    | .fileInvalidation .. => s.fd
    | _ => s.fd && s.headerWritten
  if wanted then
    match e.record with
    | .ok _ => { s with pending := s.pending ++ [e] }
    | .error _ => s.abort
  else s

/-- The part of `Receiver::init` that deals with the log (Receiver.cpp:139-158; size based
resumption together with preallocation is refused, :142-145) with `parseVerifyAndFix`
(TransferLogManager.cpp:587-610) and `traverseDestinationDir`
(Receiver.cpp:49-69), whose result is the argument `tree`.  The log could be opened and
locked.  The file is created if it does not exist: an absent log is the empty one. -/
def LogMgr.boot (env : LogEnv) (opts : LogOpts) (tree : List FileChunksInfo) (ts : Int) (w : Nat) (s : LogMgr) : LogMgr :=
  if env.dirTree && env.prealloc then { log := s.log, env := env, opts := opts, aborted := true }
  else match parseLog env [] s.log with
  | .error _ => { log := s.log, env := env, opts := opts, aborted := true }
  | .ok out =>
    let s1 : LogMgr := { log := out.log, up := true, fd := true, env := env, opts := opts, status := out.status, senderIp := out.senderIp, claims := out.infos }
    if out.status = eINVALID_LOG then { s1 with fd := false }
    else if out.status = eINCONSISTENT_DIRECTORY then s1.invalidateDirectory ts w 0
    else if out.status = eOK ∧ env.dirTree then
      (if out.infos = [] then { s1 with claims := tree } else s1.abort)
    else s1

/-- `startNewGlobalSession` (Receiver.cpp:71-90) with `startThread`
(TransferLogManager.cpp:289-300) and `verifySenderIp` (:420-443) for the address of the
first connection. -/
def LogMgr.connect (ip : Bytes) (ts : Int) (w wc : Nat) (s : LogMgr) : LogMgr :=
  let s0 := if !s.env.dirTree && s.status = eOK then { s with writer := true } else s
  if s0.fd then
    if !s0.opts.verifyOff && s0.senderIp ≠ [] && s0.senderIp ≠ ip then
      let s1 := s0.invalidateDirectory ts w wc
      if s1.up then { s1 with senderIp := ip, claims := [] } else s1
    else { s0 with senderIp := ip }
  else { s0 with claims := [] }

/-- `Receiver::addTransferLogHeader` (Receiver.cpp:489-512). -/
def LogMgr.logHeader (blockMode resuming : Bool) (ts1 ts2 : Int) (w1 w2 wc : Nat) (s : LogMgr) : LogMgr :=
  let s1 := if !resuming || (s.env.dirTree && blockMode) then s.invalidateDirectory ts1 w1 wc else s
  if s1.up then
    if !s1.env.dirTree || s1.status ≠ eINCONSISTENT_DIRECTORY then s1.writeLogHeader ts2 w2 wc else s1
  else s1

/-- `compactLog` (TransferLogManager.cpp:612-693); `disk`, `truncateOk`, `appendOk` and
`now` are those of the moment.  `w1`: last round of the writer thread; `w2`: header (or
the invalidation entry, if the directory turns out to be inconsistent); `w3`: the
entries. -/
def LogMgr.compactNow (disk : Bytes → Option Int) (tr ap : Bool) (now : Int) (w1 w2 w3 : Nat) (s : LogMgr) : LogMgr :=
  if s.fd then
    let s1 := { s.flush w1 with writer := false }
    let env := { s1.env with disk := disk, truncateOk := tr, appendOk := ap, now := now }
    match parseLog env s1.senderIp s1.log with
    | .error _ => s1.abort
    | .ok out =>
      let s2 := { s1 with log := out.log, status := out.status, senderIp := out.senderIp }
      if out.status = eINVALID_LOG then s2.closeLog 0
      else if out.status = eINCONSISTENT_DIRECTORY then s2.invalidateDirectory now w2 0
      else if out.infos.all fun x => x.chunks.length == 1 && totalChunkSize x.chunks == x.fileSize then
        let s3 := { s2 with log := [] }.writeLogHeader now w2 0
        let s4 := (out.infos.flatMap (compactEntries now)).foldl (fun m e => if m.up then m.add e else m) s3
        if s4.up then
          let s5 := { s4 with pending := [] }
          if s4.fd then { s5 with log := s4.log ++ (pendingBytes s4.pending).take w3 } else s5
        else s4
      else s2
  else s

/-- `Receiver::fixAndCloseTransferLog` (Receiver.cpp:514-556); the process is done with the
transfer afterwards.  `rename` and `unlink` succeed: the log is then absent. -/
def LogMgr.finish (success : Bool) (disk : Bytes → Option Int) (tr ap : Bool) (now : Int)
    (wh w1 w2 w3 wc : Nat) (s : LogMgr) : LogMgr :=
  let inconsistent : Bool := s.status = eINCONSISTENT_DIRECTORY
  let invalid : Bool := s.status = eINVALID_LOG
  if success && inconsistent && !s.env.dirTree then s.abort
  else
    let s1 := if success && inconsistent then s.writeLogHeader now wh 0 else s
    let s2 := if s1.opts.compact && success && !invalid && s1.opts.keepLog && !s1.env.dirTree then
      s1.compactNow disk tr ap now w1 w2 w3 else s1
    if s2.up then
      let s3 := { s2.closeLog wc with up := false }
      if success && (invalid || !s3.opts.keepLog) then { s3 with log := [] } else s3
    else s2

/-! ### Sessions -/

/-- `Receiver::getTransferConfig` (Receiver.cpp:276-285). -/
def transferConfig (prealloc dirTree : Bool) : Int :=
  (if prealloc then 1 else 0) + (if dirTree then 2 else 0)

/-- What a session is about: recovery id and configuration of the receiver, address of the
first connection. -/
structure Tag where
  rid : Bytes
  cfg : Int
  ip : Bytes
deriving DecidableEq, Repr

/-- What happened: an entry was handed to the log, or a block of a file was written to
disk, in which session (number and tag) and, for data, whether its sender was resuming. -/
inductive TItem where
  | added (e : LogEntry) (τ : Tag) (n : Nat)
  | data (τ : Tag) (n : Nat) (resuming : Bool)
deriving DecidableEq, Repr

/-- Receiver processes one after the other.  Only `m` belongs to the program; the rest
keeps track of what happened: `n` processes were started; in the current one a sender is
connected (`connected`, `peer`), its kind was settled (`settled`, `resuming`) by the call
of `addTransferLogHeader`; the log was usable at the start (`usable`); everything that
happened so far (`tr`). -/
structure LogSys where
  m : LogMgr
  n : Nat := 0
  connected : Bool := false
  settled : Bool := false
  usable : Bool := false
  peer : Bytes := []
  resuming : Bool := false
  tr : List TItem := []

/-- Tag of the current session. -/
def LogSys.tag (s : LogSys) : Tag := ⟨s.m.env.recoveryId, s.m.env.config, s.peer⟩

/-- Operations: start of a process, first connection, call of `addTransferLogHeader`, entry
added, block written to disk, round of the writer thread, end of the transfer, process
killed. -/
inductive LogOp where
  | boot (env : LogEnv) (opts : LogOpts) (tree : List FileChunksInfo) (ts : Int) (w : Nat)
  | connect (ip : Bytes) (resuming : Bool) (ts : Int) (w wc : Nat)
  | settle (blockMode : Bool) (ts1 ts2 : Int) (w1 w2 wc : Nat)
  | add (e : LogEntry)
  | data
  | flush (w : Nat)
  | finish (success : Bool) (disk : Bytes → Option Int) (tr ap : Bool) (now : Int) (wh w1 w2 w3 wc : Nat)
  | kill

/-- One operation. -/
def LogSys.step (s : LogSys) : LogOp → LogSys
  | .boot env opts tree ts w =>
    { m := s.m.boot env opts tree ts w, n := s.n + 1, usable := (s.m.boot env opts tree ts w).status ≠ eINVALID_LOG, tr := s.tr }
  | .connect ip res ts w wc => { s with m := s.m.connect ip ts w wc, connected := true, peer := ip, resuming := res }
  | .settle bm ts1 ts2 w1 w2 wc => { s with m := s.m.logHeader bm s.resuming ts1 ts2 w1 w2 wc, settled := true }
  | .add e => { s with m := s.m.add e, tr := s.tr ++ [.added e s.tag s.n] }
  | .data => { s with tr := s.tr ++ [.data s.tag s.n s.resuming] }
  | .flush w => { s with m := s.m.flush w }
  | .finish ok disk tr ap now wh w1 w2 w3 wc => { s with m := s.m.finish ok disk tr ap now wh w1 w2 w3 wc }
  | .kill => { s with m := { s.m with up := false } }

/-- Operations that can happen.  The order within a process is that of `Receiver` and
`ReceiverThread`: `addTransferLogHeader` is called once, by the first thread that gets to
it (ReceiverThread.cpp:397-417, 793-842).  Entries that invalidate a file are added only
after it.  Numbers, names and addresses are in the range in which entries can be
encoded. -/
def LogSys.Allowed (s : LogSys) : LogOp → Prop
  | .boot env _ _ ts _ => s.m.up = false ∧ env.parseOnly = false ∧ I63' env.now ∧ I63' ts ∧
    env.config = transferConfig env.prealloc env.dirTree
  | .connect ip _ ts _ _ => s.m.up = true ∧ s.connected = false ∧ ip ≠ [] ∧ s.m.env.recoveryId.length + ip.length ≤ 4095 ∧ I63' ts
  | .settle _ ts1 ts2 _ _ _ => s.m.up = true ∧ s.connected = true ∧ s.settled = false ∧ I63' ts1 ∧ I63' ts2
  | .add e => s.m.up = true ∧ s.connected = true ∧ (match e with
    | .header .. => False
    | .dirInvalidation .. => False
    | .fileInvalidation ts i => I63' ts ∧ I63' i ∧ s.settled = true
    | .fileCreation ts n i sz => I63' ts ∧ I63' i ∧ I63' sz ∧ n.length ≤ 4096
    | .blockWrite ts i o sz => I63' ts ∧ I63' i ∧ I63' o ∧ I63' sz
    | .fileResize ts i sz => I63' ts ∧ I63' i ∧ I63' sz)
  | .data => s.m.up = true ∧ s.connected = true
  | .flush _ => s.m.up = true ∧ s.connected = true
  | .finish ok disk _ _ now _ _ _ _ _ => s.m.up = true ∧ I63' now ∧ (ok = true → s.connected = true) ∧
    ∀ n d, disk n = some d → n.length ≤ 4096 ∧ I63' d
  | .kill => s.m.up = true
where I63' (v : Int) : Prop := 0 ≤ v ∧ v ≤ int64Max

end Wdt
