import Verif.Model.History
import Verif.Model.ThreadsController
/-
Model of a whole transfer: the sender's queue and histories (`SSys`), the receiver's threads
(`RFin`) and between them one connection per port, which can break at any moment and be made
again.

Simplifications.  Both sides use the same protocol version, one with sequence ids in checkpoints,
so ABORT because of the version does not occur.  Commands without effect on which blocks are
where (SETTINGS, SIZE, heart-beats, the exchange of chunks except that it delivers the list) are
left out.  The receiver is a joinable one, so a thread that fails closes its listening socket
(ReceiverThread.cpp:913-920).  Only the sender connects to the receiver's ports.  Messages are values; that their
encodings are decoded to the same values is the subject of `Protocol`.
-/
namespace Wdt

/-- What a FILE command says about a block (`BlockDetails`, Protocol.h:205-227), without the name
and the size of the file. -/
structure WBlock where
  seqId : Int
  offset : Int
  size : Int
deriving DecidableEq, Repr

/-- The header that `sendOneByteSource` writes (SenderThread.cpp:326-352). -/
def Source.wire (s : Source) : WBlock := ⟨s.seqId, s.offset, s.size⟩

/-- Commands of the sender: FILE with header and `n` bytes of data (SenderThread.cpp:316-446), DONE
(SenderThread.cpp:466-488). -/
inductive UCmd where
  | block (b : WBlock) (n : Int)
  | done
deriving DecidableEq, Repr

/-- Commands of the receiver: LOCAL_CHECKPOINT (ReceiverThread.cpp:235-255), ERR with checkpoints
of other threads, each with the number of the thread whose port it names
(ReceiverThread.cpp:833-856), WAIT (ReceiverThread.cpp:972), DONE (ReceiverThread.cpp:880). -/
inductive DCmd where
  | localCp (c : Checkpoint)
  | err (l : List (Nat × Checkpoint))
  | wait
  | done
deriving DecidableEq, Repr

/-- Where a sender thread is (SenderThread.h:23-39): before its first CONNECT; SEND_BLOCKS;
READ_RECEIVER_CMD; about to CONNECT again; READ_LOCAL_CHECKPOINT; in PROCESS_ERR_CMD with the
checkpoints it has still to handle, `w` if it waits for the thread of the first one to exit;
PROCESS_DONE_CMD; END, with or without an error. -/
inductive SPh where
  | start | sending | awaitCmd | lost | awaitCp
  | processing (l : List (Nat × Checkpoint)) (w : Bool)
  | gotDone
  | ended (ok : Bool)
deriving DecidableEq, Repr

/-- One port.

`hd`: the connection the receiver thread has accepted, or if it has not accepted any yet the
first one made to it, with what the sender has written to it and the receiver not read; `acc`: it
is accepted; `more`: number of later connections waiting to be accepted; `att`: the sender is on
the last of these connections and the receiver has not closed it; `inbox`: what the receiver has
written to the sender's connection and the sender not read; `wrote`: how much of the block that
the thread is sending it has written.

Receiver thread: blocks that `checkpoint_.numBlocks` counts (the code has only their number),
`blocksWaitingVerification_`, and the last three fields of `checkpoint_` if they are set
(ReceiverThread.h:318-335, Protocol.h:36-75).

`idle` is not in the code: it records that the thread has seen the queue empty since it last put
something into it. -/
structure Port where
  sph : SPh := .start
  hd : Option (List UCmd) := none
  acc : Bool := false
  more : Nat := 0
  att : Bool := false
  inbox : List DCmd := []
  wrote : Option Int := none
  counted : List WBlock := []
  unver : List WBlock := []
  last : Option (Int × Int × Int) := none
  idle : Bool := false
deriving DecidableEq, Repr

/-- Data written at the receiver: bytes `lo` to `hi` (exclusive) of the file with this sequence
id. -/
structure Landed where
  seqId : Int
  lo : Int
  hi : Int
deriving DecidableEq, Repr

/-- Options that matter: does the encryption have a tag (`encryptionTypeToTagLen`), are checksums
on. -/
structure ECfg where
  n : Nat
  tagged : Bool := false
  footer : Bool := false
deriving DecidableEq, Repr

/-- A transfer.  `cpv`: content of the checkpoint that a thread added to `Receiver::checkpoints_`.
The last five members are not in the code and record what has happened: data written, whether a
thread has taken anything from the queue, whether a receiver thread has decided that the transfer
is complete, whether a global checkpoint was refused, whether a receiver thread has ended without
adding its checkpoint. -/
structure ESys where
  snd : SSys
  rcv : RFin := {}
  port : Nat → Port := fun _ => {}
  cpv : Nat → Checkpoint := fun _ => {}
  landed : List Landed := []
  began : Bool := false
  dec : Bool := false
  refused : Bool := false
  silent : Bool := false

/-- `checkpoint_` of a receiver thread; unset fields are zero (Protocol.h:36-66).  `hasSeqId` is
set by the decoder (Protocol.cpp:258). -/
def Port.cp (p : Port) : Checkpoint :=
  { numBlocks := p.counted.length
    lastBlockSeqId := (p.last.getD (0, 0, 0)).1
    lastBlockOffset := (p.last.getD (0, 0, 0)).2.1
    lastBlockReceivedBytes := (p.last.getD (0, 0, 0)).2.2
    hasSeqId := true }

/-- The sender writes a command.  To a connection that the receiver has closed it goes nowhere. -/
def Port.put (p : Port) (m : UCmd) : Port :=
  if p.att then { p with hd := p.hd.map (· ++ [m]) } else p

/-- The receiver writes a command to the connection it has accepted. -/
def Port.reply (p : Port) (m : DCmd) : Port :=
  if p.att && p.more == 0 then { p with inbox := p.inbox ++ [m] } else p

/-- The sender thread closes its connection (`closeNoCheck` in CONNECT, SenderThread.cpp:118,
or END).  What it has written can still arrive. -/
def Port.leave (p : Port) (ph : SPh) : Port :=
  { p with sph := ph, att := false, inbox := [], wrote := none }

/-- The receiver thread goes to ACCEPT_WITH_TIMEOUT: it closes its connection and forgets blocks
that wait for verification (ReceiverThread.cpp:204-205).  What it has written can still arrive. -/
def Port.drop (p : Port) (l : Option (Int × Int × Int)) : Port :=
  { p with hd := none, acc := false, unver := [], last := l, att := p.att && p.more != 0 }

/-- The receiver thread ends with an error: it also closes the listening socket
(ReceiverThread.cpp:916-919). -/
def Port.shut (p : Port) (l : Option (Int × Int × Int)) : Port :=
  { p with hd := none, acc := false, unver := [], last := l, att := false, more := 0 }

/-- `setLastBlockDetails` in `writtenGuard` (ReceiverThread.cpp:482-491). -/
def ECfg.lastOf (c : ECfg) (b : WBlock) (w : Int) : Option (Int × Int × Int) :=
  if c.tagged || c.footer then none else some (b.seqId, b.offset, w)

/-- Change one port. -/
def ESys.setP (S : ESys) (t : Nat) (p : Port) : ESys := { S with port := upd S.port t p }

/-- A step of the sender's queue and histories. -/
def ESys.snd? (S : ESys) (e : SEvent) : Option ESys :=
  match sStep S.snd e with
  | .ok s => some { S with snd := s }
  | _ => none

/-- A step of the receiver's threads. -/
def ESys.rcv? (c : ECfg) (S : ESys) (e : REvent) : Option ESys :=
  match rStep c.n S.rcv e with
  | some r => some { S with rcv := r }
  | none => none

/-- The history of a sender thread. -/
def ESys.hist (S : ESys) (t : Nat) : Hist := (S.snd.threads.getD t {}).hist

/-- Is a checkpoint refused? -/
def refusedCp (h : Hist) (cp : Checkpoint) (g : Bool) : Bool :=
  match setCheckpoint h cp g with
  | .ok (.invalid, _, _) => true
  | _ => false

/-- Steps of a sender thread `t`. -/
inductive SEv where
  | discover (f : FileRec)
  | finishDiscovery
  | setPrev (infos : List FileChunksInfo)
  /-- `connectToReceiver` succeeds (SenderThread.cpp:108-149) -/
  | connect (t : Nat)
  | pop (t : Nat) (x : Source)
  | openOk (t : Nat)
  | openFail (t : Nat)
  /-- header and `n` bytes of the block are written -/
  | write (t : Nat) (n : Int)
  /-- `sendOneByteSource` returns (SenderThread.cpp:299-314) -/
  | sent (t : Nat) (o : SendOut)
  /-- no source is left: SEND_DONE_CMD (SenderThread.cpp:290-297, 466-488) -/
  | sendDone (t : Nat)
  /-- an error that leads to CONNECT, other than a failed block -/
  | lose (t : Nat)
  /-- READ_LOCAL_CHECKPOINT (SenderThread.cpp:151-206) -/
  | readCp (t : Nat)
  /-- PROCESS_WAIT_CMD (SenderThread.cpp:781-788) -/
  | readWait (t : Nat)
  /-- PROCESS_ERR_CMD up to the loop (SenderThread.cpp:790-822) -/
  | readErr (t : Nat)
  /-- PROCESS_ERR_CMD when the rest of the command cannot be read (SenderThread.cpp:794-806) -/
  | errLost (t : Nat)
  /-- one call of `handleGlobalCheckpoint` (SenderThread.cpp:823-825): its first half -/
  | global (t : Nat)
  /-- and its end, when the other thread has exited (ThreadTransferHistory.cpp:58-65) -/
  | globalGo (t : Nat)
  /-- the loop has ended (SenderThread.cpp:826) -/
  | errDone (t : Nat)
  /-- PROCESS_DONE_CMD (SenderThread.cpp:759-769) -/
  | readDone (t : Nat)
  /-- and its end (SenderThread.cpp:770-779) -/
  | doneEnd (t : Nat) (ok : Bool)
  /-- END with an error -/
  | giveUp (t : Nat)
  /-- `markNotInUse` (SenderThread.cpp:992-993) -/
  | exit (t : Nat)
deriving DecidableEq, Repr

/-- Steps of a receiver thread `t`. -/
inductive WEv where
  /-- ACCEPT_FIRST_CONNECTION, or ACCEPT_WITH_TIMEOUT entered from there: no checkpoint is sent
  (ReceiverThread.cpp:138-191, 225-231) -/
  | accept1 (t : Nat)
  /-- ACCEPT_WITH_TIMEOUT and SEND_LOCAL_CHECKPOINT (ReceiverThread.cpp:193-255) -/
  | accept (t : Nat) (ok : Bool)
  /-- PROCESS_FILE_CMD with all its data (ReceiverThread.cpp:390-666) -/
  | recv (t : Nat)
  /-- PROCESS_FILE_CMD of which `w` bytes were written before an error that leads to
  ACCEPT_WITH_TIMEOUT (`fatal = false`) or to FINISH_WITH_ERROR -/
  | recvPart (t : Nat) (w : Int) (fatal : Bool)
  /-- PROCESS_DONE_CMD (ReceiverThread.cpp:691-718) -/
  | recvDone (t : Nat)
  /-- any other error while reading: before the header of a block is complete (`reset`), or
  before a command; then ACCEPT_WITH_TIMEOUT or FINISH_WITH_ERROR -/
  | lost (t : Nat) (reset : Bool) (fatal : Bool)
  /-- a tag was verified (ReceiverThread.cpp:1017-1019) -/
  | verify (t : Nat)
  /-- WAIT_FOR_FINISH_OR_NEW_CHECKPOINT: steps of `RFin` without a message -/
  | markWaiting (t : Nat)
  | look (t : Nat)
  | resume (t : Nat)
  | query (t : Nat)
  | finish (t : Nat)
  /-- SEND_GLOBAL_CHECKPOINTS (ReceiverThread.cpp:833-856) -/
  | sendGlobal (t : Nat) (ok : Bool)
  /-- WAIT is written, or not (ReceiverThread.cpp:971-978) -/
  | sendWait (t : Nat) (ok : Bool)
  /-- SEND_DONE_CMD: DONE is written (ReceiverThread.cpp:880) -/
  | writeDone (t : Nat)
  /-- and the rest of it (ReceiverThread.cpp:881-906) -/
  | doneSent (t : Nat) (ok : Bool)
  /-- FINISH_WITH_ERROR (ReceiverThread.cpp:908-927) -/
  | failed (t : Nat)
  /-- END without a checkpoint -/
  | silentEnd (t : Nat)
  /-- a connection that the receiver has not accepted and the sender has left disappears -/
  | vanish (t : Nat)
  | vanishMore (t : Nat)
deriving DecidableEq, Repr

/-- One step of the sender. -/
def eStepS (c : ECfg) (S : ESys) : SEv → Option ESys
  | .discover f => S.snd? (.discover f)
  | .finishDiscovery => S.snd? .finishDiscovery
  | .setPrev infos => if S.began then none else S.snd? (.setPrev infos)
  | .connect t =>
    let p := S.port t
    if t < c.n ∧ (S.rcv.th t).phase ≠ .failing ∧ (S.rcv.th t).phase ≠ .ended then
      match p.sph with
      | .start => some (S.setP t { p with sph := .sending, hd := some [], att := true })
      | .lost => some (S.setP t { p with sph := .awaitCp, more := p.more + 1, att := true })
      | _ => none
    else none
  | .pop t x =>
    if (S.port t).sph = .sending then ({ S with began := true } : ESys).snd? (.pop t x) else none
  | .openOk t => S.snd? (.openOk t)
  | .openFail t => S.snd? (.openFail t)
  | .write t n =>
    let p := S.port t
    match S.snd.threads[t]? with
    | some ⟨_, none, some x⟩ =>
      if p.sph = .sending ∧ p.wrote = none ∧ 0 ≤ n ∧ n ≤ x.size then
        some (S.setP t { p.put (.block x.wire n) with wrote := some n })
      else none
    | _ => none
  | .sent t o =>
    let p := S.port t
    match S.snd.threads[t]? with
    | some ⟨h, none, some x⟩ =>
      let fine := match o with
        | .ok _ => decide (p.wrote = some x.size)
        | .fail _ => true
      if fine then
        let p' :=
          if h.globalCp then p.leave (.ended false)
          else match o with
            | .ok _ => { p with wrote := none }
            | .fail _ => p.leave .lost
        (S.setP t p').snd? (.sent t o)
      else none
    | _ => none
  | .sendDone t =>
    let p := S.port t
    match S.snd.threads[t]? with
    | some ⟨_, none, none⟩ =>
      if p.sph = .sending ∧ S.snd.q.queue = [] ∧ S.snd.q.initFinished then
        some { S.setP t { p.put .done with sph := .awaitCmd, idle := true } with began := true }
      else none
    | _ => none
  | .lose t =>
    let p := S.port t
    match S.snd.threads[t]? with
    | some ⟨_, none, none⟩ =>
      if p.sph = .sending ∨ p.sph = .awaitCmd ∨ p.sph = .awaitCp then some (S.setP t (p.leave .lost)) else none
    | _ => none
  | .readCp t =>
    let p := S.port t
    match p.sph, p.inbox with
    | .awaitCp, .localCp cp :: rest =>
      let p' := if refusedCp (S.hist t) cp false then p.leave (.ended false)
        else { p with sph := .sending, inbox := rest, idle := false }
      (S.setP t p').snd? (.localCp t cp)
    | _, _ => none
  | .readWait t =>
    let p := S.port t
    match p.sph, p.inbox with
    | .awaitCmd, .wait :: rest => (S.setP t { p with inbox := rest }).snd? (.markAll t)
    | _, _ => none
  | .readErr t =>
    let p := S.port t
    match p.sph, p.inbox with
    | .awaitCmd, .err l :: rest =>
      (S.setP t { p with sph := .processing l false, inbox := rest, idle := false }).snd? (.markAll t)
    | _, _ => none
  | .errLost t =>
    let p := S.port t
    match p.sph, p.inbox, S.snd.threads[t]? with
    | .awaitCmd, .err _ :: _, some ⟨_, none, none⟩ => (S.setP t (p.leave .lost)).snd? (.markAll t)
    | _, _, _ => none
  | .global t =>
    let p := S.port t
    match p.sph with
    | .processing ((u, cp) :: l) false =>
      ({ S.setP t { p with sph := .processing ((u, cp) :: l) true } with
          refused := S.refused || refusedCp (S.hist u) cp true } : ESys).snd? (.globalCp u cp)
    | _ => none
  | .globalGo t =>
    let p := S.port t
    match p.sph with
    | .processing ((u, _) :: l) true =>
      if (S.hist u).inUse then none else some (S.setP t { p with sph := .processing l false })
    | _ => none
  | .errDone t =>
    let p := S.port t
    match p.sph with
    | .processing [] false => some (S.setP t { p with sph := .sending })
    | _ => none
  | .readDone t =>
    let p := S.port t
    match p.sph, p.inbox with
    | .awaitCmd, .done :: rest => (S.setP t { p with sph := .gotDone, inbox := rest }).snd? (.markAll t)
    | _, _ => none
  | .doneEnd t ok =>
    let p := S.port t
    if p.sph = .gotDone then some (S.setP t (p.leave (if ok then .ended true else .lost))) else none
  | .giveUp t =>
    let p := S.port t
    match S.snd.threads[t]? with
    | some ⟨_, none, none⟩ =>
      if p.sph = .start ∨ p.sph = .sending ∨ p.sph = .awaitCmd ∨ p.sph = .awaitCp ∨ p.sph = .lost ∨
          p.sph = .gotDone then some (S.setP t (p.leave (.ended false))) else none
    | _ => none
  | .exit t =>
    match (S.port t).sph with
    | .ended _ => S.snd? (.exit t)
    | _ => none

/-- One step of the receiver. -/
def eStepR (c : ECfg) (S : ESys) : WEv → Option ESys
  | .accept1 t =>
    let p := S.port t
    if t < c.n ∧ (S.rcv.th t).phase = .reading ∧ p.acc = false then
      if p.hd.isSome then some (S.setP t { p with acc := true })
      else if 0 < p.more then some (S.setP t { p with hd := some [], more := p.more - 1, acc := true })
      else none
    else none
  | .accept t ok =>
    let p := S.port t
    if ok then
      if 0 < p.more then
        let p' := { p with hd := some [], more := p.more - 1, acc := true }
        (S.setP t (p'.reply (.localCp p.cp))).rcv? c (.accepted t true)
      else none
    else (S.setP t (p.shut p.last)).rcv? c (.accepted t false)
  | .recv t =>
    let p := S.port t
    match p.acc, p.hd with
    | true, some (.block b n :: rest) =>
      if n = b.size then
        let p' := { p with hd := some rest, last := none }
        let p'' := if c.tagged && !c.footer then { p' with unver := p.unver ++ [b] }
          else { p' with counted := p.counted ++ [b] }
        ({ S.setP t p'' with landed := S.landed ++ [⟨b.seqId, b.offset, b.offset + n⟩] } : ESys).rcv? c (.file t)
      else none
    | _, _ => none
  | .recvPart t w fatal =>
    let p := S.port t
    match p.acc, p.hd with
    | true, some (.block b n :: _) =>
      if 0 ≤ w ∧ w ≤ n then
        let p' := if fatal then p.shut (c.lastOf b w) else p.drop (c.lastOf b w)
        match ({ S.setP t p' with landed := S.landed ++ [⟨b.seqId, b.offset, b.offset + w⟩] } : ESys).rcv? c
            (.file t) with
        | some S' => S'.rcv? c (if fatal then .error t else .connLost t)
        | none => none
      else none
    | _, _ => none
  | .recvDone t =>
    let p := S.port t
    match p.acc, p.hd with
    | true, some (.done :: rest) => (S.setP t { p with hd := some rest }).rcv? c (.doneCmd t)
    | _, _ => none
  | .lost t reset fatal =>
    let p := S.port t
    let l := if reset then none else p.last
    if fatal then (S.setP t (p.shut l)).rcv? c (.error t)
    else if p.acc then (S.setP t (p.drop l)).rcv? c (.connLost t)
    else none
  | .verify t =>
    let p := S.port t
    if p.acc then some (S.setP t { p with counted := p.counted ++ p.unver, unver := [] }) else none
  | .markWaiting t => S.rcv? c (.markWaiting t)
  | .look t => S.rcv? c (.look t)
  | .resume t => S.rcv? c (.resume t)
  | .query t =>
    match S.rcv? c (.query t) with
    | some S' => some { S' with dec := S.dec || decide ((S'.rcv.th t).phase = .decided) }
    | none => none
  | .finish t => S.rcv? c (.finish t)
  | .sendGlobal t ok =>
    let p := S.port t
    let r := S.rcv.th t
    let l := ((S.rcv.cps.drop r.cpIdx).take r.newCps).map fun u => (u, S.cpv u)
    (S.setP t (if ok then p.reply (.err l) else p.drop p.last)).rcv? c (.globalWritten t ok)
  | .sendWait t ok =>
    let p := S.port t
    if ok then
      if t < c.n ∧ (S.rcv.th t).phase = .waiting then some (S.setP t (p.reply .wait)) else none
    else (S.setP t (p.drop p.last)).rcv? c (.waitFailed t)
  | .writeDone t =>
    let p := S.port t
    if t < c.n ∧ (S.rcv.th t).phase = .sendDone then some (S.setP t (p.reply .done)) else none
  | .doneSent t ok =>
    let p := S.port t
    (S.setP t (if ok then { p with counted := p.counted ++ p.unver, unver := [] } else p.drop p.last)).rcv? c
      (.doneSent t ok)
  | .failed t => ({ S with cpv := upd S.cpv t (S.port t).cp } : ESys).rcv? c (.failed t)
  | .silentEnd t =>
    let p := S.port t
    ({ S.setP t (p.shut p.last) with silent := true } : ESys).rcv? c (.silentEnd t)
  | .vanish t =>
    let p := S.port t
    if p.acc = false ∧ p.hd.isSome ∧ (p.att = false ∨ 0 < p.more) then some (S.setP t { p with hd := none }) else none
  | .vanishMore t =>
    let p := S.port t
    if 0 < p.more ∧ (p.att = false ∨ 1 < p.more) then some (S.setP t { p with more := p.more - 1 }) else none

/-- Steps. -/
inductive EEvent where
  | s (e : SEv)
  | v (e : WEv)
deriving DecidableEq, Repr

/-- One step. -/
def eStep (c : ECfg) (S : ESys) : EEvent → Option ESys
  | .s e => eStepS c S e
  | .v e => eStepR c S e

/-- An execution. -/
def eRun (c : ECfg) : ESys → List EEvent → Option ESys
  | S, [] => some S
  | S, e :: es =>
    match eStep c S e with
    | some S' => eRun c S' es
    | none => none

/-- A transfer before it starts. -/
def ESys.init (c : ECfg) (blockMb : Int) (deleteFiles : Bool) : ESys := { snd := SSys.init blockMb deleteFiles c.n }

end Wdt
