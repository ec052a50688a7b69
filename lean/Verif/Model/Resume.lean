import Verif.Model.LogSession
import Verif.Model.DestFile
/-
Model of a destination directory over the life of several receiver processes: the contents
of the files together with the transfer log (Model/LogSession), with resumption based on
the log (`isLogBasedResumption`, /repo/util/WdtOptions.cpp).

A source is fixed for every kind of session (recovery id, configuration, address of the
sender): files do not change at the sender between a transfer and its resumption.

When the machine loses power, files may lose what was not flushed to the device by `fsync`
(`safe`, `sync`, `power` below).  For the log this needs no operation of its own.  What the
writer of the log has written and the device has not stored is, as far as what remains is
concerned, as if the writer had not written it yet: nobody reads it back before `fsyncLog`
(TransferLogManager.cpp:445-450) is called or the process ends.  So `flush` stands for the
moment at which the bytes have reached the device.  The next process that uses the log calls
`fsyncLog` with its header, before it changes files; if power is lost earlier, it is as if
that process had not been started.

Not modelled: data that does not arrive as it was sent; files changed by somebody else
while a process runs; failures of `fsyncLog`, which are only reported in the messages of the process.
-/
namespace Wdt

/-- The directory.  `s`: the processes and the log; `files`: contents.  Of the current
process: `opened`: files that were opened and sized, by sequence id and name; `ready`: those
of which `openAndSetSize` has returned, so that threads write to them
(FileCreator.cpp:91-101, 138-168); `written`: name, offset and length of what was written;
`gone`: files deleted at the wish of the sender, and files that could not be made.  `fits`:
in the process of this number, what is known about this file fits into the buffer in which
it is sent to the sender (its size is the option `buffer_size`); the rest is left out
(Protocol.cpp:414-436).  `safe`: this byte of this file, as it is now, has been stored by the device and
survives a loss of power. -/
structure DirSys where
  s : LogSys
  files : Bytes → Option Bytes
  safe : Bytes → Nat → Bool := fun _ _ => true
  fits : Nat → FileChunksInfo → Bool := fun _ _ => true
  opened : List (Int × Bytes) := []
  ready : List Int := []
  written : List (Bytes × Nat × Nat) := []
  gone : List Bytes := []

/-- What the receiver tells the sender: nothing if the sender does not ask
(ReceiverThread.cpp:395-404, 736-828; Receiver.cpp:272-274).  The exchange itself is in
Model/ChunkExchange. -/
def DirSys.listed (S : DirSys) : List FileChunksInfo := if S.s.resuming then S.s.m.claims.filter (S.fits S.s.n) else []

/-- What the sender knows about a file (`previouslyTransferredChunks_.find`,
DirectorySourceQueue.cpp:504). -/
def DirSys.known (S : DirSys) (n : Bytes) : Option FileChunksInfo := S.listed.find? fun x => x.fileName = n

/-- `allocationStatus` of a file of `size` bytes (DirectorySourceQueue.cpp:504-540). -/
def DirSys.status (S : DirSys) (n : Bytes) (size : Nat) : AllocStatus :=
  match S.known n with
  | none => NOT_EXISTS
  | some x => if x.fileSize > size then EXISTS_TOO_LARGE else if x.fileSize < size then EXISTS_TOO_SMALL else EXISTS_CORRECT_SIZE

/-- Options of the receiver; `enable_download_resumption` is on. -/
def DirSys.opts (S : DirSys) : DOpts := { prealloc := S.s.m.env.prealloc, overwrite := false, resume := true }

/-- Replace a file. -/
def setFile (f : Bytes → Option Bytes) (n : Bytes) (c : Option Bytes) : Bytes → Option Bytes := fun m => if m = n then c else f m

/-- Replace what is known about a file to be stored. -/
def setSafe (safe : Bytes → Nat → Bool) (n : Bytes) (sf : Nat → Bool) : Bytes → Nat → Bool := fun m => if m = n then sf else safe m

/-- What is stored after a change of a file: bytes that are as before. -/
def still (sf : Nat → Bool) (f f' : Option Bytes) (p : Nat) : Bool := sf p && decide ((f.bind fun c => c[p]?) = f'.bind fun c => c[p]?)

/-- `len` bytes of `b` from `off` on. -/
def part (b : Bytes) (off len : Nat) : Bytes := (b.drop off).take len

/-- The entries that `openAndSetSize` adds at its end (FileCreator.cpp:69-86). -/
def DirSys.sizeEntries (S : DirSys) (ts : Int) (n : Bytes) (q : Int) (size : Nat) : List LogEntry :=
  if S.status n size = NOT_EXISTS then [.fileCreation ts n q size]
  else if S.status n size = EXISTS_TOO_LARGE then
    (match S.known n with | some x => [.fileInvalidation ts x.seqId] | none => []) ++ [.fileCreation ts n q size]
  else if S.status n size = EXISTS_TOO_SMALL then [.fileResize ts q size]
  else []

/-- Operations.  `log`: an operation on the log; `size`: `openAndSetSize`
(FileCreator.cpp:51-68) of file `n` with sequence id `q` for its first block; `fail`: it
fails and leaves `f`; `entries`: it adds its entries to the log and returns; `write`: bytes
of the source are written (ReceiverThread.cpp:505-598); `block`: a block is recorded
(`markBlockVerified`, ReceiverThread.cpp:668-682); `unlink`: a file that the sender does not have is deleted
(FileCreator.cpp:124-137); `vanish`: somebody deletes a file; `sync`: `fsync` of a file that a
thread has open (FileWriter.cpp:58-84); `power`: power is lost, the files are `f` afterwards. -/
inductive DirOp where
  | log (op : LogOp)
  | size (n : Bytes) (q : Int)
  | fail (n : Bytes) (q : Int) (f : Option Bytes)
  | entries (ts : Int) (n : Bytes) (q : Int)
  | write (n : Bytes) (off len : Nat)
  | block (ts : Int) (n : Bytes) (q : Int) (off len : Nat)
  | unlink (n : Bytes)
  | vanish (n : Bytes)
  | sync (n : Bytes)
  | power (f : Bytes → Option Bytes)

/-- The source of the current session. -/
def DirSys.src (src : Tag → Bytes → Option Bytes) (S : DirSys) (n : Bytes) : Bytes := (src S.s.tag n).getD []

/-- One operation. -/
def DirSys.step (src : Tag → Bytes → Option Bytes) (S : DirSys) : DirOp → DirSys
  | .log op => match op with
    | .boot .. => { s := S.s.step op, files := S.files, safe := S.safe, fits := S.fits }
    | _ => { S with s := S.s.step op }
  | .size n q =>
    { S with s := S.s.step .data, opened := S.opened ++ [(q, n)],
             files := setFile S.files n (openAndSize S.opts (S.status n (S.src src n).length) (S.src src n).length (S.files n)),
             safe := setSafe S.safe n (if S.status n (S.src src n).length = NOT_EXISTS then fun _ => false
               else still (S.safe n) (S.files n) (openAndSize S.opts (S.status n (S.src src n).length) (S.src src n).length (S.files n))) }
  | .fail n _ f => { S with s := S.s.step .data, gone := S.gone ++ [n], files := setFile S.files n f, safe := setSafe S.safe n fun _ => false }
  | .entries ts n q =>
    { S with s := (S.sizeEntries ts n q (S.src src n).length).foldl (fun s e => s.step (.add e)) S.s, ready := S.ready ++ [q] }
  | .write n off len =>
    { S with s := S.s.step .data, written := S.written ++ [(n, off, len)],
             files := setFile S.files n ((S.files n).map fun c => fileWrite c off (part (S.src src n) off len)),
             safe := setSafe S.safe n (still (S.safe n) (S.files n) ((S.files n).map fun c => fileWrite c off (part (S.src src n) off len))) }
  | .block ts _ q off len => { S with s := S.s.step (.add (.blockWrite ts q off len)) }
  | .unlink n => { S with s := S.s.step .data, gone := S.gone ++ [n], files := setFile S.files n none, safe := setSafe S.safe n fun _ => false }
  | .vanish n => { S with files := setFile S.files n none, safe := setSafe S.safe n fun _ => false }
  | .sync n => { S with safe := setSafe S.safe n fun _ => true }
  | .power f => { S with files := f, safe := fun _ _ => true }

/-- Sizes of the files. -/
def DirSys.sizes (S : DirSys) (n : Bytes) : Option Int := (S.files n).map fun c => (c.length : Int)

/-- A sequence id that no other file has: new files are numbered from the largest number that
the receiver listed (DirectorySourceQueue.cpp:145-161, 504-517). -/
def DirSys.Fresh (S : DirSys) (q : Int) : Prop := (∀ x ∈ S.listed, x.seqId ≠ q) ∧ ∀ y ∈ S.opened, y.1 ≠ q

/-- A file may be opened with this number: the sender has it, and the number is that under
which the receiver listed it unless it has to be made anew. -/
def DirSys.MayOpen (src : Tag → Bytes → Option Bytes) (S : DirSys) (n : Bytes) (q : Int) : Prop :=
  ∃ b, src S.s.tag n = some b ∧ (∀ y ∈ S.opened, y.2 ≠ n) ∧ n ∉ S.gone ∧
    match S.known n with
    | none => S.Fresh q
    | some x => if x.fileSize > b.length then S.Fresh q else q = x.seqId

/-- Operations that can happen.  Resumption is based on the log.  With `v`, every process
verifies the address of the sender.  With `g`, files are written only in a session whose kind is
settled by a process that found the log usable.  Blocks are recorded when they were written and
flushed to the device (ReceiverThread.cpp:575-583, 653-683).  A loss of power ends the process, if one runs (`kill`);
then a file is missing, or it is shorter or has other bytes where they were not stored.  That
a file was shortened or deleted is assumed not to be undone. -/
def DirSys.Ok (src : Tag → Bytes → Option Bytes) (v g : Bool) (S : DirSys) : DirOp → Prop
  | .log op => S.s.Allowed op ∧ match op with
    | .boot env opts _ _ _ => env.dirTree = false ∧ env.disk = S.sizes ∧ (v = true → opts.verifyOff = false)
    | .finish _ disk _ _ _ _ _ _ _ _ => disk = S.sizes
    | .add (.fileInvalidation _ _) => True
    | .add _ => False
    | .data => False
    | _ => True
  | .size n q => S.s.Allowed .data ∧ (g = true → S.s.settled = true ∧ S.s.usable = true) ∧ S.MayOpen src n q ∧
    openAndSize S.opts (S.status n (S.src src n).length) (S.src src n).length (S.files n) ≠ none
  | .fail n q _ => S.s.Allowed .data ∧ (g = true → S.s.settled = true ∧ S.s.usable = true) ∧ S.MayOpen src n q ∧ S.known n = none
  | .entries ts n q => (q, n) ∈ S.opened ∧ q ∉ S.ready ∧ (g = true → S.s.settled = true ∧ S.s.usable = true) ∧
    ∀ e ∈ S.sizeEntries ts n q (S.src src n).length, S.s.Allowed (.add e)
  | .write n off len => S.s.Allowed .data ∧ (g = true → S.s.settled = true ∧ S.s.usable = true) ∧ 0 < len ∧ off + len ≤ (S.src src n).length ∧
    ∃ q ∈ S.ready, (q, n) ∈ S.opened
  | .block ts n q off len => S.s.Allowed (.add (.blockWrite ts q off len)) ∧ (g = true → S.s.settled = true ∧ S.s.usable = true) ∧ q ∈ S.ready ∧ (q, n) ∈ S.opened ∧
    ∀ p, off ≤ p → p < off + len → ∃ w ∈ S.written, (w.1 = n ∧ w.2.1 ≤ p ∧ p < w.2.1 + w.2.2) ∧ S.safe n p = true
  | .unlink n => S.s.Allowed .data ∧ (g = true → S.s.settled = true ∧ S.s.usable = true) ∧ (∀ y ∈ S.opened, y.2 ≠ n) ∧ src S.s.tag n = none
  | .vanish _ => S.s.m.up = false
  | .sync n => S.s.m.up = true ∧ ∃ q ∈ S.ready, (q, n) ∈ S.opened
  | .power f => S.s.m.up = false ∧ ∀ n c', f n = some c' → ∃ c, S.files n = some c ∧ c'.length ≤ c.length ∧
    ∀ p, p < c.length → S.safe n p = true → c'[p]? = c[p]?

/-- Histories, starting with any directory without a log. -/
inductive DirReach (src : Tag → Bytes → Option Bytes) (v g : Bool) : DirSys → Prop
  | init (env : LogEnv) (files : Bytes → Option Bytes) (safe : Bytes → Nat → Bool) (fits : Nat → FileChunksInfo → Bool) :
    DirReach src v g { s := { m := { env := env } }, files := files, safe := safe, fits := fits }
  | step {S : DirSys} (op : DirOp) : DirReach src v g S → S.Ok src v g op → DirReach src v g (S.step src op)

end Wdt
