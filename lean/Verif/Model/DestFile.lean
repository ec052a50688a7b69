import Verif.Model.FileCreator
import Verif.Model.FileWriter
import Verif.Model.Protocol
/-
Model of what a session does to the contents of one destination file
(/repo/util/FileCreator.cpp:17-88, 197-268 and /repo/util/FileWriter.cpp): it is opened and
sized by one thread, opened by others, and written.
-/
namespace Wdt

/-- The options that matter: `shouldPreallocateFiles()`, `overwrite`,
`enable_download_resumption`. -/
structure DOpts where
  prealloc : Bool
  overwrite : Bool
  resume : Bool
deriving DecidableEq, Repr

/-- `ftruncate(2)`. -/
def truncTo (f : Bytes) (n : Nat) : Bytes := f.take n ++ List.replicate (n - f.length) 0

/-- `posix_fallocate(fd, 0, n)`: at least `n` bytes. -/
def allocTo (f : Bytes) (n : Nat) : Bytes := f ++ List.replicate (n - f.length) 0

/-- `setFileSize` (FileCreator.cpp:17-49), if the system calls succeed. -/
def setFileSize (prealloc : Bool) (size : Nat) (f : Bytes) : Bytes :=
  let f := if f.length > size then truncTo f (if prealloc then size else 0) else f
  if size = 0 then f else if prealloc then allocTo f size else f

/-- `createFile` (FileCreator.cpp:201-294) on what is there already; `none`: it fails.
Simplified: directories are in Model/Paths. -/
def createOpen (o : DOpts) (f : Option Bytes) : Option Bytes :=
  if o.overwrite || o.resume then some [] else match f with
    | none => some []
    | some _ => none

/-- `openAndSetSize` (FileCreator.cpp:51-88), if the system calls succeed as far as they can:
contents of the file afterwards, `none`: it returns -1. -/
def openAndSize (o : DOpts) (status : AllocStatus) (size : Nat) (f : Option Bytes) : Option Bytes :=
  if status = NOT_EXISTS then (createOpen o f).map (setFileSize o.prealloc size)
  else if status = EXISTS_CORRECT_SIZE then f
  else f.map (setFileSize o.prealloc size)

/-- What the events of `FileCreator` do to file `q`, contents before and after.  A failed
`openAndSetSize` may leave anything. -/
def FEv.Effect (o : DOpts) (status : AllocStatus) (size : Nat) (q : Nat) (f f' : Option Bytes) : FEv → Prop
  | .sized q' _ ok => if q' = q then (ok = true → f' = openAndSize o status size f ∧ f' ≠ none) else f' = f
  | .opened q' _ ok => f' = f ∧ (q' = q → ok = true → f ≠ none)
  | .exact _ => f' = f

/-- The same for what one step observes. -/
def Effects (o : DOpts) (status : AllocStatus) (size : Nat) (q : Nat) (f f' : Option Bytes) : List FEv → Prop
  | [] => f' = f
  | [e] => e.Effect o status size q f f'
  | _ => False

/-- Histories of a session, seen from file `q` whose blocks arrive with `status`: the state
of `FileCreator`, what was observed, the contents of the file, the `write(2)` calls that
wrote to it.  Steps of `FileCreator` (any number of threads) and writes by threads that
have the file open come in any order. -/
inductive DReach (o : DOpts) (status : AllocStatus) (size : Nat) (q : Nat) (f0 : Option Bytes) :
    FC → List FEv → Option Bytes → List WCall → Prop where
  | init : DReach o status size q f0 FC.init [] f0 []
  | step {s s' : FC} {h es : List FEv} {f f' : Option Bytes} {cs : List WCall} (a : FAct)
      (hr : DReach o status size q f0 s h f cs) (hs : s.step a = some (s', es))
      (ha : ∀ t correct, a = .enter t q correct → (correct = true ↔ status = EXISTS_CORRECT_SIZE))
      (he : Effects o status size q f f' es) : DReach o status size q f0 s' (h ++ es) f' cs
  | write {s : FC} {h : List FEv} {b : Bytes} {cs : List WCall} (t : Nat) (c : WCall)
      (hr : DReach o status size q f0 s h (some b) cs) (ht : .sized q t true ∈ h ∨ .opened q t true ∈ h) :
      DReach o status size q f0 s h (some (fileWrite b c.1 c.2)) (cs ++ [c])

/-- The receiving of one block, or of a part of it (ReceiverThread.cpp:430-600): offset and
length as in the header, the writer after `open`, the buffers handed to `write` with what
the operating system answered. -/
structure Attempt where
  offset : Nat
  dataSize : Nat
  w : FWriter
  interval : Int
  bufs : List (Bytes × List WAns × Bool)

/-- The `write(2)` calls. -/
def Attempt.calls (a : Attempt) : List WCall := (a.w.writes a.interval a.bufs).calls

/-- Number of bytes reported as written (`getTotalWritten`, FileWriter.h:47-49), which is
what a checkpoint says about the block. -/
def Attempt.written (a : Attempt) : Nat := (a.w.writes a.interval a.bufs).w.total

end Wdt
