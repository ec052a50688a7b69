import Verif.Model.Serial
/-
Model of `FileCreator::openForBlocks` and what it calls (/repo/util/FileCreator.cpp), with
any number of threads.  Names, directories and file sizes are in other models; here a file
is its sequence id.
-/
namespace Wdt

/-- A value of `fileStatusMap_` (FileCreator.h:188-196): ALLOCATED (-1), FAILED (-2), or the
index of the thread that allocates. -/
inductive FAlloc where
  | allocated
  | failed
  | by (t : Nat)
deriving DecidableEq, Repr

/-- Where a thread is. -/
inductive FPc where
  | idle
  /-- FileCreator.cpp:148-153, 92: it has made the entry and opens and sizes the file. -/
  | creating (q : Nat)
  /-- FileCreator.cpp:93-98: about to store the status. -/
  | created (q : Nat) (ok : Bool)
  /-- FileCreator.cpp:99-100: about to notify. -/
  | notifying (q : Nat) (ok : Bool)
  /-- FileCreator.cpp:106: about to take `allocationMutex_`. -/
  | wanting (q t : Nat)
  /-- FileCreator.cpp:107-118: holds `allocationMutex_`, about to look at the status. -/
  | checking (q t : Nat)
  /-- FileCreator.cpp:119: holds `allocationMutex_`, about to wait. -/
  | toSleep (q t : Nat)
  /-- FileCreator.cpp:119: waiting for thread `t` to notify, `allocationMutex_` released. -/
  | asleep (q t : Nat)
  /-- FileCreator.cpp:119: woken, about to take `allocationMutex_` again. -/
  | woken (q t : Nat)
  /-- FileCreator.cpp:167: about to open the existing file. -/
  | opening (q : Nat)
  /-- `openForBlocks` returns; with a file descriptor or -1. -/
  | done (ok : Bool)
deriving DecidableEq, Repr

/-- The state: `fileStatusMap_`, the holder of `allocationMutex_`, the threads. -/
structure FC where
  map : Nat → Option FAlloc
  mutex : Option Nat
  pc : Nat → FPc

/-- A new session (FileCreator.h:77-80). -/
def FC.init : FC := { map := fun _ => none, mutex := none, pc := fun _ => .idle }

/-- What can be observed in the file system: a thread has opened a file and set its size
(`openAndSetSize`, FileCreator.cpp:51-88), or opened an existing one; or a block arrived
which says that the file exists with the right size. -/
inductive FEv where
  | sized (q t : Nat) (ok : Bool)
  | opened (q t : Nat) (ok : Bool)
  | exact (q : Nat)
deriving DecidableEq, Repr

/-- Replace the value at one place. -/
def setAt {α : Type} (f : Nat → α) (i : Nat) (a : α) : Nat → α := fun j => if j = i then a else f j

/-- A step of thread `t`.  `enter`: a call of `openForBlocks` for a block of file `q` that
is not to be deleted; `correct`: its allocation status is EXISTS_CORRECT_SIZE.  `go ok`: the
thread goes on; `ok` is the result if it is at a call that opens a file.  `wake`: it wakes
without being notified. -/
inductive FAct where
  | enter (t q : Nat) (correct : Bool)
  | go (t : Nat) (ok : Bool)
  | wake (t : Nat)
deriving DecidableEq, Repr

/-- `openForBlocks` up to the release of `lock_` (FileCreator.cpp:138-166). -/
def FC.enter (s : FC) (t q : Nat) (correct : Bool) : FC × List FEv :=
  match s.map q with
  | none =>
    if correct then ({ s with map := setAt s.map q (some .allocated), pc := setAt s.pc t (.opening q) }, [.exact q])
    else ({ s with map := setAt s.map q (some (.by t)), pc := setAt s.pc t (.creating q) }, [])
  | some .failed => ({ s with pc := setAt s.pc t (.done false) }, [])
  | some .allocated => ({ s with pc := setAt s.pc t (.opening q) }, [])
  | some (.by t') => ({ s with pc := setAt s.pc t (.wanting q t') }, [])

/-- What `notify_all` on the condition variable of thread `t` does to a thread. -/
def FPc.notified (t : Nat) : FPc → FPc
  | .asleep q t' => if t' = t then .woken q t' else .asleep q t'
  | p => p

/-- A thread goes on; `none`: it cannot. -/
def FC.go (s : FC) (t : Nat) (ok : Bool) : Option (FC × List FEv) :=
  match s.pc t with
  | .idle => none
  | .creating q => some ({ s with pc := setAt s.pc t (.created q ok) }, [.sized q t ok])
  | .created q r =>
    -- WDT_CHECK(it != fileStatusMap_.end()) (FileCreator.cpp:96) holds: the thread made the entry
    some ({ s with map := setAt s.map q (some (if r then .allocated else .failed)), pc := setAt s.pc t (.notifying q r) }, [])
  | .notifying _ r =>
    if s.mutex = none then some ({ s with pc := fun i => if i = t then .done r else (s.pc i).notified t }, []) else none
  | .wanting q t' => if s.mutex = none then some ({ s with mutex := some t, pc := setAt s.pc t (.checking q t') }, []) else none
  | .woken q t' => if s.mutex = none then some ({ s with mutex := some t, pc := setAt s.pc t (.checking q t') }, []) else none
  | .checking q t' =>
    match s.map q with
    | some .allocated => some ({ s with mutex := none, pc := setAt s.pc t (.opening q) }, [])
    | some .failed => some ({ s with mutex := none, pc := setAt s.pc t (.done false) }, [])
    | some (.by _) => some ({ s with pc := setAt s.pc t (.toSleep q t') }, [])
    | none => none
  | .toSleep q t' => some ({ s with mutex := none, pc := setAt s.pc t (.asleep q t') }, [])
  | .asleep _ _ => none
  | .opening q => some ({ s with pc := setAt s.pc t (.done ok) }, [.opened q t ok])
  | .done _ => some ({ s with pc := setAt s.pc t .idle }, [])

/-- A step. -/
def FC.step (s : FC) : FAct → Option (FC × List FEv)
  | .enter t q correct => if s.pc t = .idle then some (s.enter t q correct) else none
  | .go t ok => s.go t ok
  | .wake t => match s.pc t with
    | .asleep q t' => some ({ s with pc := setAt s.pc t (.woken q t') }, [])
    | _ => none

/-- States that a session can reach, with what was observed on the way. -/
inductive FReach : FC → List FEv → Prop where
  | init : FReach FC.init []
  | step {s s' : FC} {h es : List FEv} (a : FAct) (hr : FReach s h) (hs : s.step a = some (s', es)) : FReach s' (h ++ es)

end Wdt
