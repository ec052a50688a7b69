import Verif.Model.SocketLife
import Verif.Model.Protocol
/-
Which calls a sender thread and a receiver thread make on their sockets, and in which order
(SenderThread.cpp:28-1001, ReceiverThread.cpp:30-1002).  The state functions are relations between
the state, the calls made and the next state, one case for each way out of the function.  What decides
between the ways out (what the peer has sent, which call has failed, what other threads have done) is
left open, so every order of calls the code can make is among those of the model, and some it cannot
make.
-/
namespace Wdt

/-- `SenderState` (SenderThread.h:23-39). -/
inductive SdSt where
  | connect | readLocalCp | sendSettings | sendBlocks | sendDone | sendSize | checkAbort | readChunks
  | readCmd | procDone | procWait | procErr | procAbort | procMismatch | fin
deriving DecidableEq, Repr

/-- `ClientSocket::connect` (util/ClientSocket.cpp:39-176) called by `connectToReceiver`
(SenderThread.cpp:68-90) until it succeeds: each address tried gives a descriptor that is closed when the
attempt fails; `true` when there is a connection in the end.  Addresses for which `socket` fails make
no call. -/
inductive SdDial : List SlOp → Bool → Prop
  | fail : SdDial [] false
  | ok (fd : Int) (h : 0 ≤ fd) : SdDial [.connect fd] true
  | retry (fd : Int) (h : 0 ≤ fd) {l b} : SdDial l b → SdDial (.connect fd :: .close true :: l) b

/-- `sendOneByteSource` behind the header (SenderThread.cpp:358-441): heart beats are read (line 262, a
buffer of `B` bytes), the bytes read from the file are written (line 388, at least one by the check of
line 369), and the footer (line 433); it may stop anywhere. -/
inductive SdBody (B : Int) : List SlOp → Prop
  | stop : SdBody B []
  | beat {l} : SdBody B l → SdBody B (.read B :: l)
  | data (n : Int) (h : 0 < n) {l} : SdBody B l → SdBody B (.write n :: l)
  | footer (n : Int) (h : 0 < n) : SdBody B [.write n]

/-- The loop of `readFileChunks` (SenderThread.cpp:568-622).  `L` tells which lengths the receiver
sends (lines 592-594). -/
inductive SdChunkLoop (L : Int → Prop) : List SlOp → SdSt → Prop
  | tooMany : SdChunkLoop L [] .fin
  | lenErr : SdChunkLoop L [.read 4] .checkAbort
  | dataErr (n : Int) (h : L n) : SdChunkLoop L [.read 4, .read n] .checkAbort
  | badList (n : Int) (h : L n) : SdChunkLoop L [.read 4, .read n] .fin
  | more (n : Int) (h : L n) {l st} : SdChunkLoop L l st → SdChunkLoop L (.read 4 :: .read n :: l) st
  | ackErr : SdChunkLoop L [.write 1] .checkAbort
  | done : SdChunkLoop L [.write 1] .sendBlocks

/-- One state function of the sender that uses the socket: state, calls, next state.  `ver` is the
protocol version, `B` the size of the buffer, `L` the lengths the receiver sends.  Lengths the sender
computes itself (`off` is at least 1, lines 213, 321, 451) are any positive numbers. -/
inductive SdStep (ver B : Int) (L : Int → Prop) : SdSt → List SlOp → SdSt → Prop
  /-- `readLocalCheckPoint` (SenderThread.cpp:151-206) -/
  | readLocalCp (st : SdSt) (h : st = .connect ∨ st = .fin ∨ st = .readCmd ∨ st = .sendSettings) :
      SdStep ver B L .readLocalCp [.read (getMaxLocalCheckpointLength ver)] st
  /-- `sendSettings` (lines 208-245) -/
  | sendSettings (n : Int) (h : 0 < n) (st : SdSt) (hs : st = .connect ∨ st = .readChunks ∨ st = .sendBlocks) :
      SdStep ver B L .sendSettings [.write n] st
  /-- `sendBlocks` (lines 282-314): the size is still to be sent -/
  | blocksSize : SdStep ver B L .sendBlocks [] .sendSize
  /-- no block left (lines 292-297), with or without heart beats read -/
  | blocksNone (b : Bool) : SdStep ver B L .sendBlocks (if b then [.read B] else []) .sendDone
  /-- a block (lines 299-313) -/
  | block (n : Int) (h : 0 < n) {l} (hl : SdBody B l) (st : SdSt) (hs : st = .fin ∨ st = .checkAbort ∨ st = .sendBlocks) :
      SdStep ver B L .sendBlocks (.write n :: l) st
  /-- `sendSizeCmd` (lines 448-464) -/
  | size (n : Int) (h : 0 < n) (st : SdSt) (hs : st = .checkAbort ∨ st = .sendBlocks) :
      SdStep ver B L .sendSize [.write n] st
  /-- `sendDoneCmd` (lines 466-488) -/
  | sendDone (st : SdSt) (hs : st = .checkAbort ∨ st = .readCmd) : SdStep ver B L .sendDone [.write kMinBufLength] st
  /-- `checkForAbort` (lines 490-504) -/
  | checkAbort (st : SdSt) (hs : st = .connect ∨ st = .procAbort) : SdStep ver B L .checkAbort [.read 1] st
  /-- `readFileChunks` (lines 506-546): answered by the first byte -/
  | chunksFirst (st : SdSt) (hs : st = .checkAbort ∨ st = .procAbort ∨ st = .readChunks ∨ st = .fin ∨ st = .sendBlocks) :
      SdStep ver B L .readChunks [.read 1] st
  /-- a checkpoint in between (lines 531-541, 725-730) -/
  | chunksCp (st : SdSt) (hs : st = .connect ∨ st = .fin ∨ st = .readChunks) :
      SdStep ver B L .readChunks [.read 1, .read (getMaxLocalCheckpointLength ver - 1)] st
  /-- the list: its header (lines 547-565) -/
  | chunksHead (st : SdSt) (hs : st = .checkAbort ∨ st = .fin) : SdStep ver B L .readChunks [.read 1, .read kChunksCmdLen] st
  /-- the list (lines 566-622) -/
  | chunksList {l st} (h : SdChunkLoop L l st) : SdStep ver B L .readChunks (.read 1 :: .read kChunksCmdLen :: l) st
  /-- `readReceiverCmd` (lines 685-723): `readNextReceiverCmd` (lines 625-683) reads one byte, again after
  each time-out -/
  | readCmd (k : Nat) (st : SdSt)
      (hs : st = .connect ∨ st = .procErr ∨ st = .procWait ∨ st = .procDone ∨ st = .procAbort ∨ st = .readCmd ∨ st = .fin) :
      SdStep ver B L .readCmd (List.replicate (k + 1) (.read 1)) st
  /-- a checkpoint in between (lines 705-714, 725-730) -/
  | readCmdCp (k : Nat) (st : SdSt) (hs : st = .connect ∨ st = .fin ∨ st = .readCmd) :
      SdStep ver B L .readCmd (List.replicate (k + 1) (.read 1) ++ [.read (getMaxLocalCheckpointLength ver - 1)]) st
  /-- `processDoneCmd` (lines 759-779) -/
  | procDone (st : SdSt) (hs : st = .connect ∨ st = .fin) :
      SdStep ver B L .procDone [.write 1, .shutdownWrites, .expectEndOfStream] st
  /-- `processWaitCmd` (lines 781-788) -/
  | procWait : SdStep ver B L .procWait [] .readCmd
  /-- `processErrCmd` (lines 790-801): the length cannot be read -/
  | procErrLen : SdStep ver B L .procErr [.read 2] .connect
  /-- `processErrCmd` (lines 803-827) -/
  | procErr (n : Int) (h : L n) (st : SdSt) (hs : st = .connect ∨ st = .fin ∨ st = .sendBlocks) :
      SdStep ver B L .procErr [.read 2, .read n] st
  /-- `processAbortCmd` (lines 829-867) -/
  | procAbort (st : SdSt) (hs : st = .fin ∨ st = .procMismatch) : SdStep ver B L .procAbort [.read kAbortLength] st

/-- A sender thread: its state, the calls made so far on its socket object (`none`: it has none), and
the calls made on each of the objects it has destroyed. -/
structure SdConf where
  st : SdSt
  cur : Option (List SlOp)
  old : List (List SlOp)
deriving DecidableEq, Repr

/-- The destructor of `WdtSocket` closes (util/WdtSocket.cpp:837-840). -/
def SdConf.gone (c : SdConf) : List (List SlOp) :=
  match c.cur with
  | none => c.old
  | some l => (l ++ [.close false]) :: c.old

/-- What a sender thread does next (SenderThread.cpp:954-1001, 108-149). -/
inductive SdMove (ver B : Int) (L : Int → Prop) : SdConf → SdConf → Prop
  /-- a state function (line 979) -/
  | step {c : SdConf} {l ops : List SlOp} {st : SdSt} (hc : c.cur = some l) (h : SdStep ver B L c.st ops st) :
      SdMove ver B L c { c with st := st, cur := some (l ++ ops) }
  /-- `connect`: the last connection has failed for good (lines 110-116) -/
  | connFinal {c : SdConf} {l : List SlOp} (hc : c.cur = some l) (h : c.st = .connect) : SdMove ver B L c { c with st := .fin }
  /-- `connect`: no progress (lines 118-126); the case without a socket is that of C21 -/
  | connNoProgress {c : SdConf} {l : List SlOp} (hc : c.cur = some l) (h : c.st = .connect) :
      SdMove ver B L c { c with st := .fin, cur := some (l ++ [.close false]) }
  /-- `connect` succeeds (lines 118, 129-148, 28-105): the old object is closed and destroyed -/
  | connOk {c : SdConf} {l : List SlOp} (h : c.st = .connect) (hl : SdDial l true) (st : SdSt)
      (hs : st = .sendSettings ∨ st = .readLocalCp) :
      SdMove ver B L c { st := st, cur := some l, old := ({ c with cur := c.cur.map (· ++ [.close false]) } : SdConf).gone }
  /-- `connect` fails (lines 131-141, 65-98): the new object is destroyed as well, if there was one -/
  | connFail {c : SdConf} {l : List SlOp} (h : c.st = .connect) (hl : SdDial l false) (st : SdSt)
      (hs : st = .fin ∨ st = .procMismatch) :
      SdMove ver B L c ⟨st, none, (l ++ [.close false]) :: ({ c with cur := c.cur.map (· ++ [.close false]) } : SdConf).gone⟩
  /-- `processVersionMismatch` (lines 869-942) -/
  | mismatch {c : SdConf} (h : c.st = .procMismatch) (st : SdSt) (hs : st = .fin ∨ st = .connect) :
      SdMove ver B L c { c with st := st }
  /-- the transfer has been aborted (lines 969-978) -/
  | aborted {c : SdConf} (h : c.st ≠ .fin) (st : SdSt) (hs : st = .fin ∨ st = .procMismatch) : SdMove ver B L c { c with st := st }
  /-- the end of the thread (line 998) -/
  | finish {c : SdConf} (h : c.st = .fin) : SdMove ver B L c { c with cur := none, old := c.gone }

/-- What a sender thread can come to (`start`, SenderThread.cpp:966-980). -/
inductive SdReach (ver B : Int) (L : Int → Prop) : SdConf → Prop
  | start : SdReach ver B L ⟨.connect, none, []⟩
  | move {c d : SdConf} : SdReach ver B L c → SdMove ver B L c d → SdReach ver B L d

/-- `ReceiverState` (ReceiverThread.h:24-41). -/
inductive RvSt where
  | listen | acceptFirst | acceptTimeout | sendLocalCp | readNext | procFile | procSettings | procDone | procSize
  | sendChunks | sendGlobalCp | sendDone | sendAbort | waitFinish | finishErr | fin
deriving DecidableEq, Repr

/-- `readAtLeast` (ReceiverThread.cpp:30-61): `len` bytes are there, at least `k` of at most `max` are
wanted.  The checks of lines 34-36 are hypotheses where it is called (they are the subject of C106). -/
inductive RvAtLeast (max k : Int) : Int → List SlOp → Prop
  | enough {len} (h : k ≤ len) : RvAtLeast max k len []
  | fail {len} (h : len < k) : RvAtLeast max k len [.read (max - len)]
  | more {len} (h : len < k) (n : Int) (hn : 0 < n) {l} : RvAtLeast max k (len + n) l → RvAtLeast max k len (.read (max - len) :: l)

/-- `sendHeartBeat` (ReceiverThread.cpp:370-387). -/
def rvBeat (b : Bool) : List SlOp := if b then [.write 1] else []

/-- The loop of `processFileCmd` over the data (ReceiverThread.cpp:538-572): at most `B` and at most what
is left are read (`readAtMost`, lines 63-79). -/
inductive RvData (B : Int) : Int → List SlOp → Prop
  | stop {left} : RvData B left []
  | eof {left} (h : 0 < left) (b : Bool) : RvData B left (rvBeat b ++ [.read (min left B)])
  | more {left} (h : 0 < left) (b b' : Bool) (n : Int) {l} : RvData B (left - n) l →
      RvData B left (rvBeat b ++ [.read (min left B)] ++ rvBeat b' ++ l)

/-- Writing the list of files (ReceiverThread.cpp:788-806): each buffer begins with its length. -/
inductive RvLists : List SlOp → Prop
  | stop : RvLists []
  | more (n : Int) (h : 4 ≤ n) {l} : RvLists l → RvLists (.write n :: l)

/-- One state function of the receiver that uses a connection: state, calls, next state.  `ver` is the
protocol version and `B` the size of the buffer. -/
inductive RvStep (ver B : Int) : RvSt → List SlOp → RvSt → Prop
  /-- `sendLocalCheckpoint` (ReceiverThread.cpp:235-254) -/
  | sendLocalCp (st : RvSt) (h : st = .acceptTimeout ∨ st = .readNext) :
      RvStep ver B .sendLocalCp [.write (getMaxLocalCheckpointLength ver)] st
  /-- `readNextCmd` (lines 257-285) -/
  | readNext (off len : Int) (hb : kMinBufLength ≤ B - off) (h0 : 0 ≤ len) {l} (h : RvAtLeast (B - off) kMinBufLength len l) (st : RvSt)
      (hs : st = .acceptTimeout ∨ st = .procDone ∨ st = .procFile ∨ st = .procSettings ∨ st = .procSize ∨ st = .finishErr) :
      RvStep ver B .readNext l st
  /-- `processSettingsCmd` (lines 288-368) -/
  | procSettings (st : RvSt) (hs : st = .finishErr ∨ st = .sendAbort ∨ st = .sendChunks ∨ st = .readNext) :
      RvStep ver B .procSettings [] st
  /-- `processFileCmd` without a header to read (lines 421-425) -/
  | fileBad : RvStep ver B .procFile [] .finishErr
  /-- `processFileCmd` (lines 427-503): the header, which is refused or cannot be opened -/
  | fileHead (b : Bool) (m k len : Int) (hk : k ≤ m) {l} (h : RvAtLeast m k len l) (st : RvSt)
      (hs : st = .acceptTimeout ∨ st = .finishErr ∨ st = .sendAbort) :
      RvStep ver B .procFile (rvBeat b ++ l) st
  /-- `processFileCmd` (lines 427-595, 655-665): the data, without a footer -/
  | fileData (b : Bool) (m k len : Int) (hk : k ≤ m) {l} (h : RvAtLeast m k len l) (left : Int) {l'} (hd : RvData B left l') (st : RvSt)
      (hs : st = .acceptTimeout ∨ st = .finishErr ∨ st = .sendAbort ∨ st = .readNext) :
      RvStep ver B .procFile (rvBeat b ++ l ++ l') st
  /-- `processFileCmd` (lines 427-654): with a footer -/
  | fileFooter (b b' : Bool) (m k len : Int) (hk : k ≤ m) {l} (h : RvAtLeast m k len l) (left : Int) {l'} (hd : RvData B left l')
      (off len' : Int) (hb : kMinBufLength ≤ B - off) {l''} (hf : RvAtLeast (B - off) kMinBufLength len' l'') (st : RvSt)
      (hs : st = .acceptTimeout ∨ st = .finishErr ∨ st = .readNext) :
      RvStep ver B .procFile (rvBeat b ++ l ++ l' ++ rvBeat b' ++ l'') st
  /-- `processDoneCmd` (lines 691-718) -/
  | procDone (st : RvSt) (hs : st = .finishErr ∨ st = .waitFinish) : RvStep ver B .procDone [] st
  /-- `processSizeCmd` (lines 720-735) -/
  | procSize (st : RvSt) (hs : st = .finishErr ∨ st = .readNext) : RvStep ver B .procSize [] st
  /-- `sendFileChunks` (lines 742-767): waits, then is told that it is done -/
  | chunksWait (k : Nat) (st : RvSt) (hs : st = .acceptTimeout ∨ st = .readNext) :
      RvStep ver B .sendChunks (List.replicate (k + 1) (.write 1)) st
  /-- `sendFileChunks` (lines 768-814): the list is not sent completely -/
  | chunksFail (k : Nat) (n : Int) (hn : 0 < n) {l} (h : RvLists l) :
      RvStep ver B .sendChunks (List.replicate k (.write 1) ++ (.write n :: l)) .acceptTimeout
  /-- `sendFileChunks` (lines 768-828) -/
  | chunksSent (k : Nat) (n : Int) (hn : 0 < n) {l} (h : RvLists l) (st : RvSt) (hs : st = .acceptTimeout ∨ st = .readNext) :
      RvStep ver B .sendChunks (List.replicate k (.write 1) ++ (.write n :: l) ++ [.read 1]) st
  /-- `sendGlobalCheckpoint` (lines 833-856) -/
  | globalCp (n : Int) (hn : 3 ≤ n) (st : RvSt) (hs : st = .acceptTimeout ∨ st = .readNext) :
      RvStep ver B .sendGlobalCp [.write n] st
  /-- `sendAbortCmd` (lines 858-876) -/
  | sendAbort (n : Int) (hn : 0 < n) (st : RvSt) (hs : st = .acceptTimeout ∨ st = .finishErr) :
      RvStep ver B .sendAbort [.write n, .close true] st
  /-- `sendDoneCmd` (lines 880-885): cannot be written -/
  | doneWrite : RvStep ver B .sendDone [.write 1] .acceptTimeout
  /-- not acknowledged (lines 889-894) -/
  | doneRead : RvStep ver B .sendDone [.write 1, .read 1] .acceptTimeout
  /-- no end of stream (lines 895-901) -/
  | doneEof : RvStep ver B .sendDone [.write 1, .read 1, .expectEndOfStream] .acceptTimeout
  /-- done (lines 902-905) -/
  | done : RvStep ver B .sendDone [.write 1, .read 1, .expectEndOfStream, .close true] .fin
  /-- `waitForFinishOrNewCheckpoint` (lines 944-982) -/
  | waitFinish (k : Nat) (st : RvSt) (hs : st = .sendGlobalCp ∨ st = .sendDone) :
      RvStep ver B .waitFinish (List.replicate k (.write 1)) st
  /-- WAIT cannot be written (lines 971-978) -/
  | waitFail (k : Nat) : RvStep ver B .waitFinish (List.replicate (k + 1) (.write 1)) .acceptTimeout

/-- A step of a receiver thread: state, calls on its one socket object, next state. -/
inductive RvMove (ver B : Int) : RvSt → List SlOp → RvSt → Prop
  /-- a state function (line 1000) -/
  | step {st ops st'} (h : RvStep ver B st ops st') : RvMove ver B st ops st'
  /-- `listen` (lines 108-135): about the listening sockets only -/
  | listen (st : RvSt) (hs : st = .finishErr ∨ st = .acceptFirst) : RvMove ver B .listen [] st
  /-- `acceptFirstConnection` (lines 138-188, util/ServerSocket.cpp:213-291) without a connection -/
  | firstNone (st : RvSt) (hs : st = .acceptTimeout ∨ st = .finishErr) : RvMove ver B .acceptFirst [.close false] st
  /-- `acceptFirstConnection` with a connection -/
  | firstOk (fd : Int) (h : 0 ≤ fd) : RvMove ver B .acceptFirst [.close false, .connect fd] .readNext
  /-- `acceptWithTimeout` (lines 195-203): the last connection has failed for good -/
  | timeoutFinal : RvMove ver B .acceptTimeout [] .fin
  /-- no connection (lines 204-221) -/
  | timeoutNone : RvMove ver B .acceptTimeout [.close false] .finishErr
  /-- a connection (lines 204-232) -/
  | timeoutOk (fd : Int) (h : 0 ≤ fd) (st : RvSt) (hs : st = .readNext ∨ st = .sendLocalCp) :
      RvMove ver B .acceptTimeout [.close false, .connect fd] st
  /-- `finishWithError` (lines 908-927, util/ServerSocket.cpp:30-48) -/
  | finishErr : RvMove ver B .finishErr [.close false] .fin
  /-- the transfer has been aborted (lines 991-996) -/
  | aborted (st : RvSt) : RvMove ver B st [] .fin
  /-- the next session of a receiver that serves many (lines 983-989) -/
  | again : RvMove ver B .fin [] .listen

/-- What a receiver thread can come to, with the calls made on its socket object (`start`,
ReceiverThread.cpp:983-1002). -/
inductive RvReach (ver B : Int) : RvSt → List SlOp → Prop
  | start : RvReach ver B .listen []
  | move {st st' l ops} : RvReach ver B st l → RvMove ver B st ops st' → RvReach ver B st' (l ++ ops)

end Wdt
