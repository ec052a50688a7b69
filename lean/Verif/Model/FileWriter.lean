import Verif.Model.Serial
/-
Model of writing a block to a file (/repo/util/FileWriter.cpp), on the level of what the
system calls do to the contents of the file.
-/
namespace Wdt

/-- What `write(2)` of `data` at position `pos` does to a file; a gap is filled with
zeros. -/
def fileWrite (file : Bytes) (pos : Nat) (data : Bytes) : Bytes :=
  if data = [] then file
  else (file ++ List.replicate (pos - file.length) 0).take pos ++ data ++ file.drop (pos + data.length)

/-- A `write(2)` that wrote something: position and bytes. -/
abbrev WCall := Nat × Bytes

/-- Several of them. -/
def applyCalls (file : Bytes) (cs : List WCall) : Bytes := cs.foldl (fun f c => fileWrite f c.1 c.2) file

/-- What `write(2)` answers: interrupted by a signal, another error, or a number of
bytes (`wrote n`: `n`, or all that was asked for if that is less). -/
inductive WAns where
  | eintr
  | err
  | wrote (n : Nat)
deriving DecidableEq, Repr

/-- How a call ends. -/
inductive WEnd where
  | ok
  | writeError
  | running
deriving DecidableEq, Repr

/-- The fields of `FileWriter` (FileWriter.h:70-87): `blockDetails_->offset`,
`blockDetails_->dataSize`, the position of `fd_` (`none`: not open), `totalWritten_`,
`nextSyncOffset_`, `writtenSinceLastSync_`. -/
structure FWriter where
  offset : Nat
  dataSize : Nat
  fd : Option Nat := none
  total : Nat := 0
  nextSync : Nat
  sinceSync : Nat := 0
deriving DecidableEq, Repr

/-- The constructor (FileWriter.h:20-29). -/
def FWriter.make (offset dataSize : Nat) : FWriter := { offset, dataSize, nextSync := offset }

/-- `open` (FileWriter.cpp:28-56) of a block that is not to be deleted, with writes not
skipped.  `opened`: `openForBlocks` returned a file descriptor; `seekOk`: `lseek`
succeeded. -/
def FWriter.open (w : FWriter) (opened seekOk : Bool) : FWriter × WEnd :=
  if !opened then (w, .writeError)
  else if w.offset > 0 then
    if seekOk then ({ w with fd := some w.offset }, .ok) else ({ w with fd := none }, .writeError)
  else ({ w with fd := some 0 }, .ok)

/-- The loop of `write` (FileWriter.cpp:107-127): the calls that wrote something, the
position of the descriptor and the end.  `answers`: what the successive `write(2)`
return. -/
def fwriteLoop : List WAns → Nat → Bytes → List WCall × Nat × WEnd
  | answers, pos, [] => let _ := answers; ([], pos, .ok)
  | [], pos, _ :: _ => ([], pos, .running)
  | .eintr :: as, pos, d :: ds => fwriteLoop as pos (d :: ds)
  | .err :: _, pos, _ :: _ => ([], pos, .writeError)
  | .wrote n :: as, pos, d :: ds =>
    let r := fwriteLoop as (pos + ((d :: ds).take n).length) ((d :: ds).drop n)
    ((pos, (d :: ds).take n) :: r.1, r.2)

/-- `syncFileRange` (FileWriter.cpp:138-192).  `interval`: `disk_sync_interval_mb`;
`syscallOk`: `sync_file_range` and `posix_fadvise` succeed.  `asked`: the range that is
synced. -/
def FWriter.syncRange (w : FWriter) (interval : Int) (written : Nat) (forced syscallOk : Bool) : FWriter × Bool × Option (Nat × Nat) :=
  if interval < 0 then (w, true, none)
  else
    let w := { w with sinceSync := w.sinceSync + written }
    if w.sinceSync = 0 then (w, true, none)
    else if forced || (w.sinceSync : Int) > interval * 1024 * 1024 then
      if syscallOk then ({ w with nextSync := w.nextSync + w.sinceSync, sinceSync := 0 }, true, some (w.nextSync, w.sinceSync))
      else (w, false, some (w.nextSync, w.sinceSync))
    else (w, true, none)

/-- What a call of `write` does. -/
structure WRes where
  w : FWriter
  calls : List WCall
  res : WEnd
  synced : Option (Nat × Nat)

/-- `write` (FileWriter.cpp:103-136), with writes not skipped.  A closed descriptor makes
`write(2)` fail. -/
def FWriter.write (w : FWriter) (interval : Int) (data : Bytes) (answers : List WAns) (syscallOk : Bool) : WRes :=
  match w.fd with
  | none => if data = [] then ⟨w, [], .ok, none⟩ else ⟨w, [], .writeError, none⟩
  | some pos =>
    let r := fwriteLoop answers pos data
    let w := { w with fd := some r.2.1 }
    match r.2.2 with
    | .ok =>
      let finished := w.total + data.length == w.dataSize
      let s := w.syncRange interval data.length finished syscallOk
      if s.2.1 then ⟨{ s.1 with total := s.1.total + data.length }, r.1, .ok, s.2.2⟩
      else ⟨s.1, r.1, .writeError, s.2.2⟩
    | e => ⟨w, r.1, e, none⟩

/-- The calls of `write` for one block (ReceiverThread.cpp:500-572): the thread stops at
the first that fails.  Each comes with the answers of the operating system. -/
def FWriter.writes (w : FWriter) (interval : Int) : List (Bytes × List WAns × Bool) → WRes
  | [] => ⟨w, [], .ok, none⟩
  | (data, answers, syncOk) :: rest =>
    let r := w.write interval data answers syncOk
    match r.res with
    | .ok =>
      let r2 := r.w.writes interval rest
      ⟨r2.w, r.calls ++ r2.calls, r2.res, r2.synced⟩
    | e => ⟨r.w, r.calls, e, r.synced⟩

/-- Options of `sync`: `fsync`, `isLogBasedResumption()`, `skip_fadvise`. -/
structure SyncOpts where
  fsync : Bool := true
  logBased : Bool := false
  skipFadvise : Bool := false
deriving DecidableEq, Repr

/-- `sync` (FileWriter.cpp:58-84): how it ends, and whether `fsync(2)` succeeded.  `fsyncOk`,
`fadviseOk`: what the system calls do. -/
def FWriter.sync (w : FWriter) (o : SyncOpts) (fsyncOk fadviseOk : Bool) : WEnd × Bool :=
  match w.fd with
  | none => (.ok, false)
  | some _ =>
    if (o.fsync || o.logBased) && !fsyncOk then (.writeError, false)
    else if !o.skipFadvise && !fadviseOk then (.writeError, o.fsync || o.logBased)
    else (.ok, o.fsync || o.logBased)

/-- `close` (FileWriter.cpp:86-97). -/
def FWriter.close (w : FWriter) (closeOk : Bool) : FWriter × WEnd :=
  match w.fd with
  | none => (w, .ok)
  | some _ => ({ w with fd := none }, if closeOk then .ok else .writeError)

/-- What happens to the file of a block, in order. -/
inductive BEv where
  | wrote (c : WCall)
  | fsynced
  | closed
deriving DecidableEq, Repr

/-- How receiving the data of a block ends: complete, so that it is recorded once it is verified; the
connection broke before all of it had come; the thread gives up. -/
inductive BEnd where
  | complete
  | broken
  | gaveUp
deriving DecidableEq, Repr

/-- The file part of `processFileCmd` (ReceiverThread.cpp:491-598) after `open`: the buffers that come
are written, the writer is synced and closed, the size is compared.  A `write` that does not
return (`running`) counts as giving up. -/
def FWriter.block (w : FWriter) (o : SyncOpts) (interval : Int) (bufs : List (Bytes × List WAns × Bool))
    (fsyncOk fadviseOk closeOk : Bool) : List BEv × BEnd :=
  let r := w.writes interval bufs
  let ws := r.calls.map BEv.wrote
  if r.res ≠ .ok then (ws, .gaveUp)
  else
    let s := r.w.sync o fsyncOk fadviseOk
    let ws := ws ++ if s.2 then [.fsynced] else []
    if s.1 ≠ .ok then (ws, .gaveUp)
    else
      let c := r.w.close closeOk
      let ws := ws ++ [.closed]
      if c.2 ≠ .ok then (ws, .gaveUp)
      else if r.w.total ≠ w.dataSize then (ws, .broken)
      else (ws, .complete)

end Wdt
