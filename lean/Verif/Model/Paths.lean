import Verif.Model.Serial
/-
Model of the paths that the receiver opens, creates or deletes
(/repo/util/FileCreator.cpp).
-/
namespace Wdt

/-- '/'. -/
def slash : UInt8 := 47

/-- `addTrailingSlash` (FileCreator.cpp:341-346), of a path that is not empty
(`CHECK(!rootDir.empty())`, FileCreator.h:37). -/
def addSlash (p : Bytes) : Bytes := if p.getLast? = some slash then p else p ++ [slash]

/-- `getFullPath` (FileCreator.cpp:337-339); `root` is `rootDir_`, with its slash. -/
def fullPath (root rel : Bytes) : Bytes := root ++ rel

/-- What a system call sees of a string: `c_str()` up to the first NUL. -/
def cstr (p : Bytes) : Bytes := p.takeWhile (· ≠ 0)

/-- The loop that looks for the end of the parent (FileCreator.cpp:308-311). -/
def parentIdx (dir : Bytes) : Nat → Nat
  | 0 => 0
  | n + 1 => if dir[n]? = some slash then n + 1 else parentIdx dir n

/-- A system call on a path. -/
inductive PathOp where
  | mkdir (p : Bytes)
  | openFile (p : Bytes)
  | unlink (p : Bytes)
deriving DecidableEq, Repr

/-- The path of a call. -/
def PathOp.path : PathOp → Bytes
  | .mkdir p => p
  | .openFile p => p
  | .unlink p => p

/-- The operating system: whether `mkdir` succeeds (or finds the directory), and whether
`open` does. -/
structure PathOS where
  mkdir : Bytes → Bool
  openFile : Bytes → Bool

/-- `createDirRecursively` (FileCreator.cpp:296-335): `createdDirs_`, the calls, the result.
`fuel`: at least the length of the name. -/
def createDirs (os : PathOS) (root : Bytes) (force : Bool) : Nat → List Bytes → Bytes → Except Fault (List Bytes × List PathOp × Bool)
  | 0, cache, _ => .ok (cache, [], false)
  | fuel + 1, cache, dir =>
    if !force && cache.contains dir then .ok (cache, [], true)
    else if dir.getLast? ≠ some slash then .error .check
    else
      let last := parentIdx dir (dir.length - 1)
      match if last > 0 then createDirs os root force fuel cache (dir.take last) else .ok (cache, [], true) with
      | .error f => .error f
      | .ok (cache, ops, false) => .ok (cache, ops, false)
      | .ok (cache, ops, true) =>
        let p := cstr (fullPath root dir)
        if os.mkdir p then .ok (dir :: cache, ops ++ [.mkdir p], true) else .ok (cache, ops ++ [.mkdir p], false)

/-- The checks at the beginning of `createFile` and `openExistingFile`
(FileCreator.cpp:172-176, 202-204). -/
def nameOk (name : Bytes) : Bool := name ≠ [] && name.head? ≠ some slash && name.getLast? ≠ some slash

/-- `openExistingFile` (FileCreator.cpp:170-199). -/
def openExisting (os : PathOS) (root name : Bytes) : Except Fault (List PathOp × Bool) :=
  if nameOk name then .ok ([.openFile (cstr (fullPath root name))], os.openFile (cstr (fullPath root name))) else .error .check

/-- The part of the name up to the last slash (FileCreator.cpp:213-219); empty if there is
none. -/
def dirPart (name : Bytes) : Bytes := name.take (parentIdx name name.length)

/-- The second attempt, after `open` failed (FileCreator.cpp:266-290). -/
def createRetry (os : PathOS) (root name dir : Bytes) (cache : List Bytes) : Except Fault (List Bytes × List PathOp × Bool) :=
  if dir = [] then .ok (cache, [], false)
  else match createDirs os root true dir.length cache dir with
    | .error f => .error f
    | .ok (cache, ops, false) => .ok (cache, ops, false)
    | .ok (cache, ops, true) => .ok (cache, ops ++ [.openFile (cstr (fullPath root name))], os.openFile (cstr (fullPath root name)))

/-- The directories that `createFile` makes before the first `open`
(FileCreator.cpp:216-244). -/
def createDirsTwice (os : PathOS) (root dir : Bytes) (cache : List Bytes) : Except Fault (List Bytes × List PathOp × Bool) :=
  if dir = [] then .ok (cache, [], true)
  else match createDirs os root false dir.length cache dir with
    | .error f => .error f
    | .ok (cache, ops, true) => .ok (cache, ops, true)
    | .ok (cache, ops, false) =>
      match createDirs os root true dir.length cache dir with
      | .error f => .error f
      | .ok (cache, ops', r) => .ok (cache, ops ++ ops', r)

/-- `createFile` (FileCreator.cpp:201-294), when writes are not skipped.  Simplified: the
same call gets the same answer both times. -/
def createFile (os : PathOS) (root name : Bytes) (cache : List Bytes) : Except Fault (List Bytes × List PathOp × Bool) :=
  if !nameOk name then .error .check
  else match createDirsTwice os root (dirPart name) cache with
    | .error f => .error f
    | .ok (cache, ops, false) => .ok (cache, ops, false)
    | .ok (cache, ops, true) =>
      if os.openFile (cstr (fullPath root name)) then .ok (cache, ops ++ [.openFile (cstr (fullPath root name))], true)
      else match createRetry os root name (dirPart name) cache with
        | .error f => .error f
        | .ok (cache, ops', r) => .ok (cache, ops ++ [.openFile (cstr (fullPath root name))] ++ ops', r)

/-- What the receiver does with a block (FileCreator.cpp:123-168, 51-63): delete the file,
create it, or open it. -/
inductive BlockUse where
  | delete
  | create
  | openExisting
deriving DecidableEq, Repr

/-- The calls for a block of the file `name`. -/
def useBlock (os : PathOS) (root name : Bytes) (cache : List Bytes) : BlockUse → Except Fault (List PathOp)
  | .delete => .ok [.unlink (cstr (fullPath root name))]
  | .create => match createFile os root name cache with
    | .error f => .error f
    | .ok (_, ops, _) => .ok ops
  | .openExisting => match openExisting os root name with
    | .error f => .error f
    | .ok (ops, _) => .ok ops

end Wdt
