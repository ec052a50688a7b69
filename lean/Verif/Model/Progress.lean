import Verif.Model.History
import Verif.Model.Reporting
import Mathlib.Data.Nat.Log
/-
Model of what a user sees of a transfer: the progress display and the printed report
(/repo/Reporting.cpp:66-100, 226-335), and how the numbers for the display are read while the transfer runs
(/repo/Sender.cpp:128-151, 156-162, 412-459).

Text is bytes.  The throughputs are `double`s printed with one digit; their text is an argument.
-/
namespace Wdt

/-- Conversion of an `int64_t` to `int` (implementation-defined before C++20; what all compilers do). -/
def wrapInt (x : Int) : Int := (x + 2147483648) % 4294967296 - 2147483648

/-- Fits in an `int`. -/
def fitsInt (x : Int) : Bool := decide (-2147483648 ≤ x ∧ x ≤ 2147483647)

/-- Fits in an `int64_t`. -/
def fitsInt64 (x : Int) : Bool := decide (-9223372036854775808 ≤ x ∧ x ≤ 9223372036854775807)

/-- The percentage (`progress`, Reporting.cpp:274-278).  The product is of `int64_t`s. -/
def progressPercent (eff total : Int) : Except Fault Int :=
  if total > 0 then
    if fitsInt64 (eff * 100) then .ok (wrapInt ((eff * 100).tdiv total)) else .error .ub
  else .ok 0

/-- Digits of a number, as `<<` writes it. -/
def decText (n : Nat) : Bytes := if n < 10 then [UInt8.ofNat (48 + n)] else decText (n / 10) ++ [UInt8.ofNat (48 + n % 10)]

/-- The same with a sign. -/
def intText (x : Int) : Bytes := if x < 0 then 45 :: decText x.natAbs else decText x.natAbs

/-- `setw(2)` (Reporting.cpp:327). -/
def padTwo (t : Bytes) : Bytes := List.replicate (2 - t.length) 32 ++ t

/-- " Mbytes/s" -/
def mbytesText : Bytes := [32, 77, 98, 121, 116, 101, 115, 47, 115]

/-- Width of the bar (Reporting.cpp:305-314): shorter while files are being discovered.  `log10` of a `double` is taken to
be exact, which it is for the numbers of files below 10^15. -/
def barWidth (files : Nat) (finished : Bool) : Int :=
  if finished then 50 else 50 - (3 + (if files > 0 then ((Nat.log 10 files : Nat) : Int) + 1 else 1))

/-- What is before the bar. -/
def barPrefix (files : Nat) (finished : Bool) : Bytes := if finished then [] else decText files ++ [46, 46, 46]

/-- The bar with its brackets (Reporting.cpp:316-326). -/
def barText (width scaled : Int) : Bytes :=
  91 :: (List.replicate (scaled - 1).toNat 61 ++ (if scaled ≠ 0 ∧ scaled ≠ width then [62] else []) ++
    List.replicate (width - scaled - 1).toNat 32 ++ [93])

/-- What is after the bar (Reporting.cpp:327-333). -/
def barTail (p : Int) (avg cur : Bytes) : Bytes :=
  32 :: (padTwo (intText p) ++ [37, 32] ++ avg ++
    (if p < 100 then 32 :: cur ++ mbytesText ++ [32, 32] else mbytesText ++ List.replicate 10 32))

/-- `displayProgress` (Reporting.cpp:300-335): the line written after a carriage return. -/
def displayLine (p : Int) (files : Nat) (finished : Bool) (avg cur : Bytes) : Except Fault Bytes :=
  let w := barWidth files finished
  if fitsInt (p * w) then .ok (barPrefix files finished ++ barText w ((p * w).tdiv 100) ++ barTail p avg cur)
  else .error .ub

/-- What a terminal shows on a line after a carriage return and new text. -/
def redraw (old new : Bytes) : Bytes := new ++ old.drop new.length

/-! ### Reading the numbers -/

/-- The loop over the threads (`getGlobalTransferStats`, Sender.cpp:156-162), from thread `t` on: before each is read, something may happen. -/
def readThreads (s : SSys) (t : Nat) : List (List SEvent) → Res Int
  | [] => .ok 0
  | evs :: l =>
    match sRun s evs with
    | .fault f => .fault f
    | .blocked => .blocked
    | .ok s' =>
      match readThreads s' (t + 1) l with
      | .fault f => .fault f
      | .blocked => .blocked
      | .ok n => .ok (((s'.threads[t]?).map fun th => th.hist.stats.effDataBytes).getD 0 + n)

/-- Percentage shown (Sender.cpp:128-151, Reporting.cpp:274-278): the total is read first. -/
def readPercent (s : SSys) (l : List (List SEvent)) : Res Int :=
  match readThreads s 0 l with
  | .fault f => .fault f
  | .blocked => .blocked
  | .ok n =>
    match progressPercent n s.q.totalFileSize with
    | .error f => .fault f
    | .ok p => .ok p

/-- Percentage shown by a receiver (Receiver.cpp:405-416): the total is what the sender has announced, or -1. -/
def receiverPercent (threads : List TStats) : Except Fault Int :=
  progressPercent (sumStats threads).effDataBytes (sumStats threads).totalSenderBytes

/-! ### The printed report -/

/-- `insert` into a `std::set<std::string>`. -/
def insertName (n : Bytes) : List Bytes → List Bytes
  | [] => [n]
  | m :: l => if n < m then n :: m :: l else if n = m then m :: l else m :: insertName n l

/-- The set of names (Reporting.cpp:234-237). -/
def nameSet (l : List Bytes) : List Bytes := l.foldl (fun s n => insertName n s) []

/-- What `operator<<` says about failures (Reporting.cpp:226-270): "All files failed.", the names of files, and how many
more there are, if any are said to be; the same for directories. -/
structure FailText where
  all : Bool := false
  files : List Bytes := []
  moreFiles : Option Int := none
  dirs : List Bytes := []
  moreDirs : Option Int := none
deriving DecidableEq, Repr

/-- `kMaxEntriesToPrint` (Reporting.cpp:21). -/
def maxEntries : Nat := 10

/-- At most ten, and how many more. -/
def firstEntries (l : List Bytes) : List Bytes × Option Int :=
  (l.take maxEntries, if min (maxEntries : Int) l.length < l.length then some (l.length - min (maxEntries : Int) l.length) else none)

/-- `operator<<` (Reporting.cpp:226-270), on what it says about failures. -/
def failText (numFiles : Int) (failed : List Bytes) (dirs : List Bytes) : FailText :=
  let f := firstEntries (nameSet failed)
  let d := firstEntries dirs
  if failed = [] then { dirs := d.1, moreDirs := d.2 }
  else if numFiles = 0 then { all := true, dirs := d.1, moreDirs := d.2 }
  else { files := f.1, moreFiles := f.2, dirs := d.1, moreDirs := d.2 }

/-- Names of the files that the report has as failed: those that could not be opened and those left in the queue
(`getFailedSourceStats`, DirectorySourceQueue.cpp:557-564). -/
def SSys.failedNames (s : SSys) : List Bytes := (s.q.failed ++ s.q.queue).map Source.name


end Wdt
