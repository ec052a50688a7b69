/-
Model of the descriptors that wdt opens, uses and closes: files and directories read by the
sender (/repo/util/DirectorySourceQueue.cpp, /repo/util/FileByteSource.cpp), files written by the
receiver (/repo/util/FileWriter.cpp, /repo/util/FileCreator.cpp), sockets
(/repo/util/ClientSocket.cpp, /repo/util/ServerSocket.cpp, /repo/util/WdtSocket.cpp, their use in
/repo/SenderThread.cpp and /repo/ReceiverThread.cpp), and the transfer log
(/repo/util/TransferLogManager.cpp).  All of them are in one process together with the
application, which opens and closes descriptors of its own; the system hands out any number that
is free.  Queues, threads and receivers are numbered over all transfers of the process.

Simplified: a closed descriptor is free even if `close` reports an error (as on Linux); contents,
names and error codes are left out.
-/
namespace Wdt

/-- What a number is open for. -/
inductive FdOwner
  | free
  | app
  | dir (q : Nat)
  | file (k : Nat)
  | src (i : Nat)
  | writer (t : Nat)
  | client (t : Nat)
  | listen (t : Nat)
  | conn (t : Nat)
  | log (i : Nat)
deriving DecidableEq, Repr

/-- What must not happen: closing or using a number that is not open for the purpose, using an
object that was destroyed, a null pointer, a failing check. -/
inductive FdBad
  | close
  | use
  | dangling
  | null
  | check
deriving DecidableEq, Repr

/-- `SourceMetaData` (ByteSource.h:24-52): `q` the queue it belongs to, `fd` and `needToClose`,
`del`: status TO_BE_DELETED. -/
structure FdMeta where
  q : Nat
  fd : Option Nat
  needToClose : Bool
  del : Bool
deriving DecidableEq, Repr

/-- `FileByteSource` (FileByteSource.h:111-137): the metadata, `fd_`, whether `threadCtx_` is set,
whether `bytesRead_` is positive, `held`: a thread has it, otherwise it is in the queue or in a
history. -/
structure FdSrc where
  file : Nat
  fd : Option Nat := none
  ctx : Bool := false
  read : Bool := false
  held : Bool := false
deriving DecidableEq, Repr

/-- A `ClientSocket`: its descriptor, and whether a thread is within the loop of `connect`. -/
structure FdClient where
  fd : Option Nat := none
  connecting : Bool := false
deriving DecidableEq, Repr

/-- A `ServerSocket`: `listeningFds_`, the descriptor of the connection, whether the thread is within
the loop of `listen`, and whether it waits for a connection. -/
structure FdServer where
  listen : List Nat := []
  conn : Option Nat := none
  listening : Bool := false
  accepting : Bool := false
deriving DecidableEq, Repr

/-- The process. `cur`: the source that a sender thread has; `budget`: `openFilesDuringDiscovery_`
of a queue; `dirs`: the directory that the discovery of a queue reads; `writers`: the `FileWriter` of
a receiver thread and its descriptor; `logs`: the log of a receiver. -/
structure FdSys where
  fds : Nat → FdOwner
  files : Nat → Option FdMeta := fun _ => none
  nfile : Nat := 0
  srcs : Nat → Option FdSrc := fun _ => none
  nsrc : Nat := 0
  cur : Nat → Option Nat := fun _ => none
  budget : Nat → Int
  dirs : Nat → Option Nat := fun _ => none
  writers : Nat → Option (Option Nat) := fun _ => none
  clients : Nat → Option FdClient := fun _ => none
  servers : Nat → Option FdServer := fun _ => none
  logs : Nat → Option Nat := fun _ => none

/-- Function update. -/
def fdUpd {α : Type} (f : Nat → α) (n : Nat) (x : α) : Nat → α := fun m => if m = n then x else f m

/-- `open`, `socket`, `accept`, `opendir`: `r` is the number the system has chosen, `none` or a number
that is in use mean failure. -/
def FdSys.kopen (s : FdSys) (o : FdOwner) (r : Option Nat) : FdSys × Option Nat :=
  match r with
  | some n => if s.fds n = .free then ({ s with fds := fdUpd s.fds n o }, some n) else (s, none)
  | none => (s, none)

/-- `close(n)`, by code that takes it to be open for `o`. -/
def FdSys.kclose (s : FdSys) (o : FdOwner) (n : Nat) : Except FdBad FdSys :=
  if s.fds n = o then .ok { s with fds := fdUpd s.fds n .free } else .error .close

/-- `close(n)` where there is something to close. -/
def FdSys.kcloseOpt (s : FdSys) (o : FdOwner) (n : Option Nat) : Except FdBad FdSys :=
  match n with
  | some n => s.kclose o n
  | none => .ok s

/-- Any other system call with `n`, by code that takes it to be open for `o`. -/
def FdSys.kuse (s : FdSys) (o : FdOwner) (n : Nat) : Except FdBad FdSys := if s.fds n = o then .ok s else .error .use

/-! ### Sender: files -/

/-- `createIntoQueue` (DirectorySourceQueue.cpp:442-477) without the blocks: `lent` is the descriptor
in `WdtFileInfo`, `r` the result of opening the file. -/
def FdSys.addFile (s : FdSys) (q : Nat) (lent r : Option Nat) : FdSys :=
  if s.budget q ≠ 0 ∧ lent = none then
    let p := s.kopen (.file s.nfile) r
    { p.1 with
      files := fdUpd s.files s.nfile (some { q := q, fd := p.2, needToClose := p.2.isSome, del := false })
      nfile := s.nfile + 1, budget := fdUpd s.budget q (s.budget q - 1) }
  else
    { s with
      files := fdUpd s.files s.nfile (some { q := q, fd := lent, needToClose := false, del := false }), nfile := s.nfile + 1 }

/-- A file to be deleted at the destination (DirectorySourceQueue.cpp:655-664). -/
def FdSys.addDelete (s : FdSys) (q : Nat) : FdSys :=
  { s with files := fdUpd s.files s.nfile (some { q := q, fd := none, needToClose := false, del := true }), nfile := s.nfile + 1 }

/-- A block of file `k` is put in the queue (DirectorySourceQueue.cpp:541-543, 665-667). -/
def FdSys.addBlock (s : FdSys) (k : Nat) : FdSys :=
  { s with srcs := fdUpd s.srcs s.nsrc (some { file := k }), nsrc := s.nsrc + 1 }

/-- The owner that the descriptor of a source has to have. -/
def srcOwner (i : Nat) (x : FdSrc) (m : FdMeta) : FdOwner :=
  if m.fd = none then .src i else if m.needToClose then .file x.file else .app

/-- `clearPageCache` (FileByteSource.cpp:165-183); `adv`: the options and the file ask for it. -/
def FdSys.clearCache (s : FdSys) (i : Nat) (x : FdSrc) (m : FdMeta) (adv : Bool) : Except FdBad FdSys :=
  if adv = true ∧ x.ctx = true ∧ x.read = true then
    match x.fd with
    | some n => s.kuse (srcOwner i x m) n
    | none => .error .use
  else .ok s

/-- `FileByteSource::close` (FileByteSource.cpp:185-197). -/
def FdSys.srcClose (s : FdSys) (i : Nat) (x : FdSrc) (adv : Bool) : Except FdBad (FdSys × FdSrc) :=
  match s.files x.file with
  | none => .error .dangling
  | some m =>
    match s.clearCache i x m adv with
    | .error e => .error e
    | .ok s =>
      if m.fd ≠ none then .ok (s, { x with fd := none, ctx := false })
      else
        match x.fd with
        | none => .ok (s, { x with ctx := false })
        | some n =>
          if x.ctx = false then .error .null
          else
            match s.kclose (.src i) n with
            | .error e => .error e
            | .ok s => .ok (s, { x with fd := none, ctx := false })

/-- `FileByteSource::open` (FileByteSource.cpp:68-97); the result says whether it returns OK. -/
def FdSys.srcOpen (s : FdSys) (i : Nat) (x : FdSrc) (adv : Bool) (r : Option Nat) : Except FdBad (FdSys × FdSrc × Bool) :=
  match s.files x.file with
  | none => .error .dangling
  | some m =>
    if m.del then .ok (s, x, true)
    else
      match s.srcClose i { x with read := false } adv with
      | .error e => .error e
      | .ok (s, x) =>
        match m.fd with
        | some n => .ok (s, { x with ctx := true, fd := some n }, true)
        | none =>
          let p := s.kopen (.src i) r
          .ok (p.1, { x with ctx := true, fd := p.2 }, p.2.isSome)

/-- `getNextSource` (DirectorySourceQueue.cpp:699-721) of thread `t` takes source `i` from the queue;
if it cannot be opened it is closed and destroyed. -/
def FdSys.take (s : FdSys) (t i : Nat) (adv : Bool) (r : Option Nat) : Except FdBad FdSys :=
  match s.cur t, s.srcs i with
  | none, some x =>
    if x.held then .ok s
    else
      match s.srcOpen i x adv r with
      | .error e => .error e
      | .ok (s, x, true) => .ok { s with srcs := fdUpd s.srcs i (some { x with held := true }), cur := fdUpd s.cur t (some i) }
      | .ok (s, x, false) =>
        match s.srcClose i x adv with
        | .error e => .error e
        | .ok (s, x) =>
          match s.srcClose i x adv with
          | .error e => .error e
          | .ok (s, _) => .ok { s with srcs := fdUpd s.srcs i none }
  | _, _ => .ok s

/-- `read` (FileByteSource.cpp:104-163): nothing without a descriptor, otherwise `pread`, and `close` if
that failed or the file is too short (lines 130-146). -/
def FdSys.readSrc (s : FdSys) (t : Nat) (adv ok : Bool) : Except FdBad FdSys :=
  match s.cur t with
  | none => .ok s
  | some i =>
    match s.srcs i with
    | none => .error .dangling
    | some x =>
      match s.files x.file with
      | none => .error .dangling
      | some m =>
        match x.fd with
        | none => .ok s
        | some n =>
          if x.ctx = false then .error .null
          else
            match s.kuse (srcOwner i x m) n with
            | .error e => .error e
            | .ok s =>
              if ok then .ok { s with srcs := fdUpd s.srcs i (some { x with read := true }) }
              else
                match s.srcClose i x adv with
                | .error e => .error e
                | .ok (s, x) => .ok { s with srcs := fdUpd s.srcs i (some x) }

/-- After a block (SenderThread.cpp:302-303): the source is closed, and goes into the thread's
history or, if that refuses it, back to the queue (ThreadTransferHistory.cpp:34-47). -/
def FdSys.putSrc (s : FdSys) (t : Nat) (adv : Bool) : Except FdBad FdSys :=
  match s.cur t with
  | none => .ok s
  | some i =>
    match s.srcs i with
    | none => .error .dangling
    | some x =>
      match s.srcClose i x adv with
      | .error e => .error e
      | .ok (s, x) => .ok { s with srcs := fdUpd s.srcs i (some { x with held := false }), cur := fdUpd s.cur t none }

/-- The destructor of a source that no thread has (FileByteSource.h:51-53). -/
def FdSys.dropSrc (s : FdSys) (i : Nat) (adv : Bool) : Except FdBad FdSys :=
  match s.srcs i with
  | none => .ok s
  | some x =>
    if x.held then .ok s
    else
      match s.srcClose i x adv with
      | .error e => .error e
      | .ok (s, _) => .ok { s with srcs := fdUpd s.srcs i none }

/-- The source is one of queue `q`. -/
def FdSys.srcIn (s : FdSys) (q i : Nat) : Bool :=
  match s.srcs i with
  | none => false
  | some x =>
    match s.files x.file with
    | none => false
    | some m => m.q == q

/-- The destructor of the queue closes what discovery has opened (DirectorySourceQueue.cpp:174-181). -/
def FdSys.dropFile (s : FdSys) (q k : Nat) : Except FdBad FdSys :=
  match s.files k with
  | none => .ok s
  | some m =>
    if m.q = q then
      match s.kcloseOpt (.file k) (if m.needToClose then m.fd else none) with
      | .error e => .error e
      | .ok s => .ok { s with files := fdUpd s.files k none }
    else .ok s

/-- Destruction of the sources of the queue, one after the other. -/
def FdSys.dropSrcs (q : Nat) (adv : Bool) : List Nat → FdSys → Except FdBad FdSys
  | [], s => .ok s
  | i :: l, s =>
    match (if s.srcIn q i then s.dropSrc i adv else .ok s) with
    | .error e => .error e
    | .ok s => FdSys.dropSrcs q adv l s

/-- Destruction of the metadata of the queue, one after the other. -/
def FdSys.dropFiles (q : Nat) : List Nat → FdSys → Except FdBad FdSys
  | [], s => .ok s
  | k :: l, s =>
    match s.dropFile q k with
    | .error e => .error e
    | .ok s => FdSys.dropFiles q l s

/-- The threads of the queue's sender have been joined: none has a source, and no directory is open. -/
def FdSys.joined (s : FdSys) (q : Nat) : Bool :=
  (s.dirs q).isNone && (List.range s.nsrc).all fun i => !(s.srcIn q i && ((s.srcs i).elim false (·.held)))

/-- Destruction of a sender after its threads were joined: the histories (Sender.h:219-220, last member)
and then the queue (Sender.h:173-174), which destroys its sources and then the metadata
(DirectorySourceQueue.cpp:170-183). -/
def FdSys.destroyQueue (s : FdSys) (q : Nat) (adv : Bool) : Except FdBad FdSys :=
  if s.joined q then
    match FdSys.dropSrcs q adv (List.range s.nsrc) s with
    | .error e => .error e
    | .ok s => FdSys.dropFiles q (List.range s.nfile) s
  else .ok s

/-! ### Receiver: files -/

/-- What happens when a file is opened for a block: `skip`: skip_writes; `del`: to be deleted;
`r1`, `r2`: results of `open`, the second after making the directories again; `first`: this
thread has to set the size, and `sizeOk`; `seekOk`. -/
structure FdOpen where
  skip : Bool := false
  del : Bool := false
  r1 : Option Nat := none
  r2 : Option Nat := none
  again : Bool := false
  first : Bool := false
  sizeOk : Bool := true
  seekOk : Bool := true
deriving DecidableEq, Repr

/-- `openForBlocks` (FileCreator.cpp:51-88, 90-102, 123-170, 172-199, 201-294): `createFile` opens a second
time if the first failed; `openAndSetSize` closes if the size cannot be set. -/
def FdSys.openForBlocks (s : FdSys) (t : Nat) (o : FdOpen) : Except FdBad (FdSys × Option Nat) :=
  if o.del then .ok (s, none)
  else
    let p := s.kopen (.writer t) o.r1
    let p := if p.2 = none ∧ o.again = true then p.1.kopen (.writer t) o.r2 else p
    match p.2 with
    | none => .ok (p.1, none)
    | some n =>
      if o.first = true ∧ o.sizeOk = false then
        match p.1.kclose (.writer t) n with
        | .error e => .error e
        | .ok s => .ok (s, none)
      else .ok (p.1, some n)

/-- `FileWriter::close` and the destructor (FileWriter.cpp:17-26, 86-97). -/
def FdSys.writerDrop (s : FdSys) (t : Nat) : Except FdBad FdSys :=
  match s.writers t with
  | none => .ok s
  | some fd =>
    match s.kcloseOpt (.writer t) fd with
    | .error e => .error e
    | .ok s => .ok { s with writers := fdUpd s.writers t none }

/-- `processFileCmd` makes a writer and opens it (ReceiverThread.cpp:480, 498-504, FileWriter.cpp:28-57); if that
failed the writer is destroyed at the return. -/
def FdSys.writerOpen (s : FdSys) (t : Nat) (o : FdOpen) : Except FdBad FdSys :=
  match s.writers t with
  | some _ => .ok s
  | none =>
    if o.skip then .ok { s with writers := fdUpd s.writers t (some none) }
    else
      match s.openForBlocks t o with
      | .error e => .error e
      | .ok (s, fd) =>
        if o.del then
          if fd ≠ none then .error .check else .ok { s with writers := fdUpd s.writers t (some none) }
        else
          let s := { s with writers := fdUpd s.writers t (some fd) }
          if fd = none ∨ o.seekOk = false then s.writerDrop t else .ok s

/-- `write` and `sync` (FileWriter.cpp:59-84, 103-136); after an error the writer is destroyed at the
return (ReceiverThread.cpp:533-537, 567-572, 577-581). -/
def FdSys.writerUse (s : FdSys) (t : Nat) (ok : Bool) : Except FdBad FdSys :=
  match s.writers t with
  | none => .ok s
  | some none => .ok s
  | some (some n) =>
    match s.kuse (.writer t) n with
    | .error e => .error e
    | .ok s => if ok then .ok s else s.writerDrop t

/-- The writer is closed and destroyed at the end of the block (ReceiverThread.cpp:582). -/
def FdSys.writerEnd (s : FdSys) (t : Nat) : Except FdBad FdSys :=
  match s.writers t with
  | none => .ok s
  | some fd =>
    match s.kcloseOpt (.writer t) fd with
    | .error e => .error e
    | .ok s => FdSys.writerDrop { s with writers := fdUpd s.writers t (some none) } t

/-! ### Sockets of the sender -/

/-- `closeConnectionInternal` (WdtSocket.cpp:654-684) of a client socket. -/
def FdSys.clientClose (s : FdSys) (t : Nat) : Except FdBad FdSys :=
  match s.clients t with
  | none => .ok s
  | some c =>
    match s.kcloseOpt (.client t) c.fd with
    | .error e => .error e
    | .ok s => .ok { s with clients := fdUpd s.clients t (some { c with fd := none }) }

/-- The socket is destroyed (WdtSocket.cpp:838-841). -/
def FdSys.clientDrop (s : FdSys) (t : Nat) : Except FdBad FdSys :=
  match s.clientClose t with
  | .error e => .error e
  | .ok s => .ok { s with clients := fdUpd s.clients t none }

/-- `connect` and `connectToReceiver` (SenderThread.cpp:35-64, 108-130): the old socket is closed and
destroyed, and a new one made. -/
def FdSys.clientNew (s : FdSys) (t : Nat) : Except FdBad FdSys :=
  match s.clientClose t with
  | .error e => .error e
  | .ok s =>
    match s.clientDrop t with
    | .error e => .error e
    | .ok s => .ok { s with clients := fdUpd s.clients t (some {}) }

/-- A call of `ClientSocket::connect` in the loop (SenderThread.cpp:73-75, ClientSocket.cpp:39-42): the
check of `fd`. The loop ends after a success, so it is not called then. -/
def FdSys.clientCall (s : FdSys) (t : Nat) (connected : Bool) : Except FdBad FdSys :=
  match s.clients t with
  | none => .ok s
  | some c =>
    if connected then .ok s
    else if c.fd ≠ none then .error .check
    else .ok { s with clients := fdUpd s.clients t (some { c with connecting := true }) }

/-- What becomes of one address: connected; closed, and the next is tried; closed, and `connect` returns
(ClientSocket.cpp:84-169). -/
inductive FdAddr
  | good
  | next
  | give
deriving DecidableEq, Repr

/-- One address in `ClientSocket::connect` (ClientSocket.cpp:60-169). -/
def FdSys.clientTry (s : FdSys) (t : Nat) (r : Option Nat) (a : FdAddr) : Except FdBad FdSys :=
  match s.clients t with
  | none => .ok s
  | some c =>
    if c.connecting = false then .ok s
    else
      let p := s.kopen (.client t) r
      match p.2 with
      | none => .ok p.1
      | some n =>
        let s := { p.1 with clients := fdUpd p.1.clients t (some { c with fd := some n }) }
        match a with
        | .good => .ok { s with clients := fdUpd s.clients t (some { fd := some n, connecting := false }) }
        | .next => s.clientClose t
        | .give =>
          match s.clientClose t with
          | .error e => .error e
          | .ok s => .ok { s with clients := fdUpd s.clients t (some {}) }

/-- Reading and writing; without a descriptor the call fails in the system. -/
def FdSys.clientUse (s : FdSys) (t : Nat) : Except FdBad FdSys :=
  match s.clients t with
  | none => .ok s
  | some c =>
    match c.fd with
    | none => .ok s
    | some n => s.kuse (.client t) n

/-! ### Sockets of the receiver -/

/-- `closeConnectionInternal` (WdtSocket.cpp:654-684) of a server socket. -/
def FdSys.serverClose (s : FdSys) (t : Nat) : Except FdBad FdSys :=
  match s.servers t with
  | none => .ok s
  | some c =>
    match s.kcloseOpt (.conn t) c.conn with
    | .error e => .error e
    | .ok s => .ok { s with servers := fdUpd s.servers t (some { c with conn := none }) }

/-- The loop over `listeningFds_` in `closeAllNoCheck` (ServerSocket.cpp:37-46). -/
def FdSys.closeList (o : FdOwner) : List Nat → FdSys → Except FdBad FdSys
  | [], s => .ok s
  | n :: l, s =>
    match s.kclose o n with
    | .error e => .error e
    | .ok s => FdSys.closeList o l s

/-- `closeAllNoCheck` (ServerSocket.cpp:30-48). -/
def FdSys.serverCloseAll (s : FdSys) (t : Nat) : Except FdBad FdSys :=
  match s.serverClose t with
  | .error e => .error e
  | .ok s =>
    match s.servers t with
    | none => .ok s
    | some c =>
      match FdSys.closeList (.listen t) c.listen s with
      | .error e => .error e
      | .ok s => .ok { s with servers := fdUpd s.servers t (some { c with listen := [] }) }

/-- The destructor (ServerSocket.cpp:50-52). -/
def FdSys.serverDrop (s : FdSys) (t : Nat) : Except FdBad FdSys :=
  match s.serverCloseAll t with
  | .error e => .error e
  | .ok s => .ok { s with servers := fdUpd s.servers t none }

/-- `ReceiverThread::init` makes the socket (ReceiverThread.cpp:1019-1032). -/
def FdSys.serverNew (s : FdSys) (t : Nat) : Except FdBad FdSys :=
  match s.serverDrop t with
  | .error e => .error e
  | .ok s => .ok { s with servers := fdUpd s.servers t (some {}) }

/-- `listen` is called (ServerSocket.cpp:121-125): nothing is done if it listens. -/
def FdSys.serverListen (s : FdSys) (t : Nat) : FdSys :=
  match s.servers t with
  | none => s
  | some c => if c.listen ≠ [] then s else { s with servers := fdUpd s.servers t (some { c with listening := true }) }

/-- One address in `listen` (ServerSocket.cpp:55-91, 156-199): `ok` if bind, listen and finding out the port
succeeded, otherwise the descriptor is closed. -/
def FdSys.serverTry (s : FdSys) (t : Nat) (r : Option Nat) (ok : Bool) : Except FdBad FdSys :=
  match s.servers t with
  | none => .ok s
  | some c =>
    if c.listening = false then .ok s
    else
      let p := s.kopen (.listen t) r
      match p.2 with
      | none => .ok p.1
      | some n =>
        if ok then .ok { p.1 with servers := fdUpd p.1.servers t (some { c with listen := c.listen ++ [n] }) }
        else p.1.kclose (.listen t) n

/-- `listen` returns. -/
def FdSys.serverListened (s : FdSys) (t : Nat) : FdSys :=
  match s.servers t with
  | none => s
  | some c => { s with servers := fdUpd s.servers t (some { c with listening := false }) }

/-- The states in which a receiver thread waits for a connection close the old one first
(ReceiverThread.cpp:142, 204). -/
def FdSys.serverEnter (s : FdSys) (t : Nat) : Except FdBad FdSys :=
  match s.serverClose t with
  | .error e => .error e
  | .ok s =>
    match s.servers t with
    | none => .ok s
    | some c => .ok { s with servers := fdUpd s.servers t (some { c with accepting := true }) }

/-- `acceptNextConnection` (ServerSocket.cpp:213-300), called in those states until one is accepted
(ReceiverThread.cpp:144-187, 213-222): `setFd` does not close what the socket had. -/
def FdSys.serverAccept (s : FdSys) (t : Nat) (r : Option Nat) : FdSys :=
  match s.servers t with
  | none => s
  | some c =>
    if c.accepting = false ∨ c.listen = [] then s
    else
      let p := s.kopen (.conn t) r
      match p.2 with
      | none => p.1
      | some n => { p.1 with servers := fdUpd p.1.servers t (some { c with conn := some n, accepting := false }) }

/-- Polling and accepting use the listening descriptors, reading and writing that of the connection. -/
def FdSys.useList (o : FdOwner) : List Nat → FdSys → Except FdBad FdSys
  | [], s => .ok s
  | n :: l, s =>
    match s.kuse o n with
    | .error e => .error e
    | .ok s => FdSys.useList o l s

/-- Use of a server socket. -/
def FdSys.serverUse (s : FdSys) (t : Nat) : Except FdBad FdSys :=
  match s.servers t with
  | none => .ok s
  | some c =>
    match FdSys.useList (.listen t) c.listen s with
    | .error e => .error e
    | .ok s =>
      match c.conn with
      | none => .ok s
      | some n => s.kuse (.conn t) n

/-- `finishWithError` (ReceiverThread.cpp:913-920). -/
def FdSys.serverFinish (s : FdSys) (t : Nat) (joinable : Bool) : Except FdBad FdSys :=
  if joinable then s.serverCloseAll t else s.serverClose t

/-! ### The log -/

/-- `openLog` (TransferLogManager.cpp:247-287): `r1`, `r3` the results of opening, `r2` that of creating,
`found`: the first open failed for another reason than that there is no log; `lock`: `flock` succeeds. -/
def FdSys.logOpen (s : FdSys) (i : Nat) (r1 r2 r3 : Option Nat) (found lock : Bool) : Except FdBad FdSys :=
  if s.logs i ≠ none then .error .check
  else
    let p := s.kopen (.log i) r1
    match p.2 with
    | some n =>
      if lock then .ok { p.1 with logs := fdUpd p.1.logs i (some n) }
      else p.1.kclose (.log i) n
    | none =>
      if found then .ok p.1
      else
        let p2 := p.1.kopen (.log i) r2
        match p2.1.kcloseOpt (.log i) p2.2 with
        | .error e => .error e
        | .ok s =>
          let p3 := s.kopen (.log i) r3
          match p3.2 with
          | none => .ok p3.1
          | some n =>
            if lock then .ok { p3.1 with logs := fdUpd p3.1.logs i (some n) }
            else p3.1.kclose (.log i) n

/-- `close` (TransferLogManager.cpp:340-351). -/
def FdSys.logClose (s : FdSys) (i : Nat) : Except FdBad FdSys :=
  match s.logs i with
  | none => .ok s
  | some n =>
    match s.kclose (.log i) n with
    | .error e => .error e
    | .ok s => .ok { s with logs := fdUpd s.logs i none }

/-- Reading and writing the log. -/
def FdSys.logUse (s : FdSys) (i : Nat) : Except FdBad FdSys :=
  match s.logs i with
  | none => .ok s
  | some n => s.kuse (.log i) n

/-! ### The process -/

/-- A descriptor that a sender got from the application and may still use. -/
def FdSys.lent (s : FdSys) (n : Nat) : Bool :=
  (List.range s.nfile).any fun k =>
    match s.files k with
    | none => false
    | some m => !m.needToClose && m.fd == some n

/-- Steps of the process, by any thread. -/
inductive FdEv
  | appOpen (r : Option Nat)
  | appClose (n : Nat)
  | dirOpen (q : Nat) (r : Option Nat)
  | dirClose (q : Nat)
  | addFile (q : Nat) (lent r : Option Nat)
  | addDelete (q : Nat)
  | addBlock (k : Nat)
  | take (t i : Nat) (adv : Bool) (r : Option Nat)
  | read (t : Nat) (adv ok : Bool)
  | put (t : Nat) (adv : Bool)
  | dropSrc (i : Nat) (adv : Bool)
  | destroyQueue (q : Nat) (adv : Bool)
  | wOpen (t : Nat) (o : FdOpen)
  | wUse (t : Nat) (ok : Bool)
  | wEnd (t : Nat)
  | wDrop (t : Nat)
  | cNew (t : Nat)
  | cCall (t : Nat)
  | cTry (t : Nat) (r : Option Nat) (a : FdAddr)
  | cUse (t : Nat)
  | cDrop (t : Nat)
  | sNew (t : Nat)
  | sListen (t : Nat)
  | sTry (t : Nat) (r : Option Nat) (ok : Bool)
  | sListened (t : Nat)
  | sEnter (t : Nat)
  | sAccept (t : Nat) (r : Option Nat)
  | sUse (t : Nat)
  | sClose (t : Nat)
  | sFinish (t : Nat) (joinable : Bool)
  | sDrop (t : Nat)
  | lOpen (i : Nat) (r1 r2 r3 : Option Nat) (found lock : Bool)
  | lUse (i : Nat)
  | lClose (i : Nat)
deriving Repr

/-- One step. The application closes only its own descriptors, and not those that it has lent
and a sender still has; it lends only open ones.  Discovery reads one directory at a time
(DirectorySourceQueue.cpp:269-404).  The log is opened once (Receiver.cpp:146; calling `init` twice is in
Model/Lifecycle). -/
def FdSys.step (s : FdSys) : FdEv → Except FdBad FdSys
  | .appOpen r => .ok (s.kopen .app r).1
  | .appClose n => if s.fds n = .app ∧ s.lent n = false then s.kclose .app n else .ok s
  | .dirOpen q r =>
    if s.dirs q = none then
      let p := s.kopen (.dir q) r
      .ok { p.1 with dirs := fdUpd p.1.dirs q p.2 }
    else .ok s
  | .dirClose q =>
    match s.dirs q with
    | none => .ok s
    | some n =>
      match s.kclose (.dir q) n with
      | .error e => .error e
      | .ok s => .ok { s with dirs := fdUpd s.dirs q none }
  | .addFile q lent r =>
    match lent with
    | none => .ok (s.addFile q none r)
    | some n => if s.fds n = .app then .ok (s.addFile q (some n) r) else .ok s
  | .addDelete q => .ok (s.addDelete q)
  | .addBlock k => if (s.files k).isSome then .ok (s.addBlock k) else .ok s
  | .take t i adv r => s.take t i adv r
  | .read t adv ok => s.readSrc t adv ok
  | .put t adv => s.putSrc t adv
  | .dropSrc i adv => s.dropSrc i adv
  | .destroyQueue q adv => s.destroyQueue q adv
  | .wOpen t o => s.writerOpen t o
  | .wUse t ok => s.writerUse t ok
  | .wEnd t => s.writerEnd t
  | .wDrop t => s.writerDrop t
  | .cNew t => s.clientNew t
  | .cCall t => s.clientCall t ((s.clients t).elim false (·.fd.isSome))
  | .cTry t r a => s.clientTry t r a
  | .cUse t => s.clientUse t
  | .cDrop t => s.clientDrop t
  | .sNew t => s.serverNew t
  | .sListen t => .ok (s.serverListen t)
  | .sTry t r ok => s.serverTry t r ok
  | .sListened t => .ok (s.serverListened t)
  | .sEnter t => s.serverEnter t
  | .sAccept t r => .ok (s.serverAccept t r)
  | .sUse t => s.serverUse t
  | .sClose t => s.serverClose t
  | .sFinish t j => s.serverFinish t j
  | .sDrop t => s.serverDrop t
  | .lOpen i r1 r2 r3 found lock => if s.logs i = none then s.logOpen i r1 r2 r3 found lock else .ok s
  | .lUse i => s.logUse i
  | .lClose i => s.logClose i

/-- Steps one after the other. -/
def FdSys.run (s : FdSys) : List FdEv → Except FdBad FdSys
  | [] => .ok s
  | e :: l =>
    match s.step e with
    | .error b => .error b
    | .ok s => s.run l

/-- A process in which wdt has done nothing yet: `app` are the numbers the application has open,
`budget` the option open_files_during_discovery of each queue. -/
def FdSys.init (app : Nat → Bool) (budget : Nat → Int) : FdSys :=
  { fds := fun n => if app n then .app else .free, budget := budget }

end Wdt
