import Verif.Model.Paths
/-
Model of the discovery of files in a directory tree (/repo/util/DirectorySourceQueue.cpp:
256-410), which the sender uses to find what to send and the receiver to find what it has.
-/
namespace Wdt

/-- `d_type` of a directory entry. -/
inductive DType where
  | dir | reg | lnk | unknown | other
deriving DecidableEq, Repr

/-- `st_mode` and `st_size` of a file. -/
inductive FMode where
  | reg (size : Nat)
  | dir
  | lnk
  | other
deriving DecidableEq, Repr

/-- A directory entry as `readdir` returns it. -/
structure DEnt where
  name : Bytes
  dtype : DType
deriving DecidableEq, Repr

/-- The file system, which does not change meanwhile.  `opendir p`: the entries that `readdir`
yields, and whether it ends with an error; `none`: the directory cannot be opened.  The
others are the system calls of these names. -/
structure DiskView where
  opendir : Bytes → Option (List DEnt × Bool)
  lstat : Bytes → Option FMode
  stat : Bytes → Option FMode
  realpath : Bytes → Option Bytes

/-- The settings: `followSymlinks_`, and the patterns as the set of strings they match; `none`:
the pattern is empty.  Simplified: a pattern that is not a regular expression, for which
the constructor of `std::regex` throws in a thread that does not catch it, is left out. -/
structure XCfg where
  follow : Bool := false
  exclude : Option (Bytes → Bool) := none
  incl : Option (Bytes → Bool) := none
  prune : Option (Bytes → Bool) := none

/-- A file handed to `createIntoQueue`. -/
structure XFile where
  full : Bytes
  rel : Bytes
  size : Nat
deriving DecidableEq, Repr

/-- The variables of `explore`: `todoList`, `visited`, what was handed to `createIntoQueue`,
`failedDirectories_`, `hasError`. -/
structure XState where
  todo : List Bytes
  visited : List Bytes := []
  files : List XFile := []
  failedDirs : List Bytes := []
  hasError : Bool := false
deriving DecidableEq, Repr

/-- The tests with the patterns for files (DirectorySourceQueue.cpp:372-379). -/
def XCfg.wanted (c : XCfg) (rel : Bytes) : Bool :=
  !(match c.exclude with | some f => f rel | none => false) && (match c.incl with | some f => f rel | none => true)

/-- The test with the pattern for directories (DirectorySourceQueue.cpp:396-398). -/
def XCfg.pruned (c : XCfg) (rel : Bytes) : Bool := match c.prune with | some f => f rel | none => false

/-- `keepEntry` (DirectorySourceQueue.cpp:323-332). -/
def DType.kept (follow : Bool) : DType → Bool
  | .dir => true
  | .reg => true
  | .unknown => true
  | .lnk => follow
  | .other => false

/-- DirectorySourceQueue.cpp:335-363: what the entry is and the path to use; `none`: an
error. -/
def xResolve (d : DiskView) (follow : Bool) (p : Bytes) : Option (FMode × Bytes) :=
  match d.lstat p with
  | none => none
  | some m =>
    if follow ∧ m = .lnk then match d.stat p, d.realpath p with
      | some m, some q => some (m, q)
      | _, _ => none
    else some (m, p)

/-- DirectorySourceQueue.cpp:385-402: a directory `rel` (without its slash), to be known as
`full`. -/
def XState.addDir (c : XCfg) (s : XState) (full rel : Bytes) : XState :=
  if c.follow && s.visited.contains full then { s with hasError := true }
  else
    let s := if c.follow then { s with visited := full :: s.visited } else s
    if c.pruned (rel ++ [slash]) then s else { s with todo := s.todo ++ [rel ++ [slash]] }

/-- "." and ".." (DirectorySourceQueue.cpp:311-317). -/
def isDots (n : Bytes) : Bool := n = [46] ∨ n = [46, 46]

/-- One entry of the directory `rel` (DirectorySourceQueue.cpp:308-402). -/
def xEntry (d : DiskView) (c : XCfg) (root rel : Bytes) (s : XState) (e : DEnt) : XState :=
  if isDots e.name || !e.dtype.kept c.follow then s
  else if e.dtype = .dir then s.addDir c (root ++ (rel ++ e.name)) (rel ++ e.name)
  else match xResolve d c.follow (root ++ (rel ++ e.name)) with
    | none => { s with hasError := true }
    | some (.reg size, full) =>
      if c.wanted (rel ++ e.name) then { s with files := s.files ++ [⟨full, rel ++ e.name, size⟩] } else s
    | some (.dir, full) => s.addDir c full (rel ++ e.name)
    | some _ => s

/-- One directory (DirectorySourceQueue.cpp:276-404); `s` without the directory in `todo`. -/
def xDir (d : DiskView) (c : XCfg) (root rel : Bytes) (s : XState) : XState :=
  match d.opendir (root ++ rel) with
  | none => { s with failedDirs := s.failedDirs ++ [root ++ rel], hasError := true }
  | some (ents, err) =>
    let s := ents.foldl (xEntry d c root rel) s
    { s with hasError := s.hasError || err }

/-- The loop over `todoList` (DirectorySourceQueue.cpp:269-405).  Aborts are left out.
`none`: not finished after so many directories. -/
def xLoop (d : DiskView) (c : XCfg) (root : Bytes) : Nat → XState → Option XState
  | 0, s => if s.todo = [] then some s else none
  | fuel + 1, s => match s.todo with
    | [] => some s
    | rel :: rest => xLoop d c root fuel (xDir d c root rel { s with todo := rest })

/-- `explore` (DirectorySourceQueue.cpp:256-410); `root` is `rootDir_`, with its slash
(:127-129).  It returns `!hasError`. -/
def explore (d : DiskView) (c : XCfg) (root : Bytes) (fuel : Nat) : Option XState :=
  xLoop d c root fuel { todo := [[]] }

/-- `WdtFileInfo` as the application gives it (WdtTransferRequest.h); a negative size: not
known. -/
structure LFile where
  name : Bytes
  size : Int
deriving DecidableEq, Repr

/-- `enqueueFiles` (DirectorySourceQueue.cpp:570-596); `statSize p`: `st_size`, `none`: `stat`
fails.  The files handed to `createIntoQueue`, the files put into `failedSourceStats_`, and
the result.  Aborts are left out. -/
def enqueueFiles (statSize : Bytes → Option Nat) (root : Bytes) : List LFile → List XFile × List Bytes × Bool
  | [] => ([], [], true)
  | f :: fs =>
    match (if f.size < 0 then statSize (root ++ f.name) else some f.size.toNat) with
    | none => ([], [f.name], false)
    | some n =>
      let (files, failed, res) := enqueueFiles statSize root fs
      (⟨root ++ f.name, f.name, n⟩ :: files, failed, res)

/-- `buildQueueSynchronously` with a list of files (DirectorySourceQueue.cpp:204-219): the list
given first, then those that `fileInfoGenerator_` returns until it returns none. -/
def enqueueLists (statSize : Bytes → Option Nat) (root : Bytes) : List (List LFile) → List XFile × List Bytes × Bool
  | [] => ([], [], true)
  | l :: ls =>
    match enqueueFiles statSize root l with
    | (files, failed, false) => (files, failed, false)
    | (files, failed, true) =>
      let (files', failed', res) := enqueueLists statSize root ls
      (files ++ files', failed ++ failed', res)

/-- Whether files that only the receiver has are deleted (Sender.cpp:324-327, 347-355):
`downloadResumptionEnabled` of the request, `enable_download_resumption` and
`delete_extra_files` of the options, the protocol version. -/
def deletionEnabled (reqResume optResume optDelete : Bool) (version : Int) : Bool :=
  (reqResume || optResume) && (reqResume || optDelete) && decide (26 ≤ version)

end Wdt
