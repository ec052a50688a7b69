import Verif.Model.Serial
/-
Model of `PerfStatReport` (/repo/Reporting.h:548-601, /repo/Reporting.cpp:364-510): durations of
calls of the operating system, collected by each thread, merged and printed.

Simplified: `int64_t` is `Int` without overflow; `timeInMicros / kMicroToMilli` and the products with
0.5, 0.95 and 0.99 are computed in `double`, here the first is exact and the others are arguments
of `printStat`; sum, minimum and maximum are printed as microseconds; the average is left out.
-/
namespace Wdt

/-- `std::unordered_map<int64_t, int64_t>`: milliseconds to number of calls. -/
abbrev TimeHist := List (Int × Int)

/-- `map[k] += v`. -/
def TimeHist.add (k v : Int) : TimeHist → TimeHist
  | [] => [(k, v)]
  | (k', v') :: h => if k' = k then (k, v' + v) :: h else (k', v') :: TimeHist.add k v h

/-- The members of `PerfStatReport` for one type of call (Reporting.h:585-596). -/
structure PerfStat where
  hist : TimeHist := []
  max : Int := 0
  min : Int := 0
  count : Int := 0
  sum : Int := 0
deriving DecidableEq, Repr

/-- `numeric_limits<int64_t>::max()` -/
def maxInt64 : Int := 9223372036854775807

/-- All types, of which there are 15 (Reporting.h:550-569). -/
abbrev PerfReport := Nat → PerfStat

/-- A new report.  The initialiser of `minValueMicros_` (Reporting.h:591) has one value for an array: it is that of the
first element, the others are 0. -/
def PerfReport.new : PerfReport := fun i => { min := if i = 0 then maxInt64 else 0 }

/-- `addPerfStat` (Reporting.cpp:398-413) for the type of this call. -/
def PerfStat.add (s : PerfStat) (micros : Int) : PerfStat :=
  { hist := s.hist.add (micros.tdiv 1000) 1
    max := Max.max s.max micros
    min := Min.min s.min micros
    count := s.count + 1
    sum := s.sum + micros }

/-- `addPerfStat` (Reporting.cpp:398-413). -/
def PerfReport.add (r : PerfReport) (type : Nat) (micros : Int) : PerfReport :=
  fun i => if i = type then (r i).add micros else r i

/-- The body of the loop of `operator+=` (Reporting.cpp:426-437). -/
def PerfStat.merge (a b : PerfStat) : PerfStat :=
  { hist := b.hist.foldl (fun h p => h.add p.1 p.2) a.hist
    max := Max.max a.max b.max
    min := Min.min a.min b.min
    count := a.count + b.count
    sum := a.sum + b.sum }

/-- `operator+=` (Reporting.cpp:422-439). -/
def PerfReport.merge (a b : PerfReport) : PerfReport := fun i => (a i).merge (b i)

/-- `kHistogramBuckets` (Reporting.cpp:386-396). -/
def histBounds : List Int :=
  [1, 2, 3, 4, 5, 6, 7, 8, 9, 10, 11, 12, 14, 16, 18, 20, 25, 30, 35, 40, 45, 50, 60, 70, 80, 90, 100,
   120, 140, 160, 180, 200, 250, 300, 350, 400, 450, 500, 600, 700, 800, 900, 1000,
   2000, 3000, 4000, 5000, 7500, 10000, 20000, 30000, 40000, 50000, 75000, 100000]

/-- Sorting the keys (Reporting.cpp:464-468), together with what the map has for them. -/
def insertKey (p : Int × Int) : TimeHist → TimeHist
  | [] => [p]
  | q :: h => if p.1 ≤ q.1 then p :: q :: h else q :: insertKey p h

def sortKeys : TimeHist → TimeHist
  | [] => []
  | p :: h => insertKey p (sortKeys h)

/-- Going on to the bucket of `time` (Reporting.cpp:491-494); the argument is a bound on the number of
iterations. -/
def nextBucket (time : Int) : Nat → Nat → Nat
  | 0, i => i
  | fuel + 1, i => if i < histBounds.length ∧ time ≥ histBounds.getD i 0 then nextBucket time fuel (i + 1) else i

/-- What the loop over the times has: `currentBucketIndex`, `runningCount`, `buckets`, what was
printed as p50, p95, p99. -/
structure PrintAcc where
  idx : Nat := 0
  running : Int := 0
  buckets : List Int
  p50 : List Int := []
  p95 : List Int := []
  p99 : List Int := []
deriving DecidableEq, Repr

/-- The percentile that starts here (Reporting.cpp:480-488). -/
def hitsPct (p running count : Int) : Bool := decide (p > running ∧ p ≤ running + count)

/-- The loop over the times (Reporting.cpp:476-496). -/
def printLoop (p50 p95 p99 : Int) : PrintAcc → TimeHist → Except Fault PrintAcc
  | a, [] => .ok a
  | a, (time, count) :: h =>
    if time < 0 then .error .check
    else
      let idx := nextBucket time (histBounds.length + 1) a.idx
      printLoop p50 p95 p99
        { idx := idx
          running := a.running + count
          buckets := a.buckets.set idx (a.buckets.getD idx 0 + count)
          p50 := if hitsPct p50 a.running count then a.p50 ++ [time] else a.p50
          p95 := if hitsPct p95 a.running count then a.p95 ++ [time] else a.p95
          p99 := if hitsPct p99 a.running count then a.p99 ++ [time] else a.p99 } h

/-- What is printed for a type: number of calls, sum, minimum, maximum, percentiles, and for each bucket that
is not empty its bounds (none: unlimited) and its number. -/
structure PerfLine where
  ncalls : Int
  sum : Int
  min : Int
  max : Int
  p50 : List Int
  p95 : List Int
  p99 : List Int
  buckets : List (Int × Option Int × Int)
deriving DecidableEq, Repr

/-- The lower bound of bucket `j` (Reporting.cpp:502-503). -/
def bucketStart (j : Nat) : Int := if j = 0 then 0 else histBounds.getD (j - 1) 0

/-- The upper bound of bucket `j` (Reporting.cpp:504-506); for the last the code prints the greatest number. -/
def bucketEnd (j : Nat) : Option Int := if j < histBounds.length then some (histBounds.getD j 0) else none

/-- `operator<<` (Reporting.cpp:441-511) for one type; `none`: no line.  `p50`, `p95`, `p99`: the
products with the number of calls, cut off (lines 472-474). -/
def PerfStat.print (s : PerfStat) (p50 p95 p99 : Int) : Except Fault (Option PerfLine) :=
  if s.count = 0 then .ok none
  else
    match printLoop p50 p95 p99 { buckets := List.replicate (histBounds.length + 1) 0 } (sortKeys s.hist) with
    | .error f => .error f
    | .ok a => .ok (some
        { ncalls := s.count, sum := s.sum, min := s.min, max := s.max, p50 := a.p50, p95 := a.p95, p99 := a.p99
          buckets := ((List.range (histBounds.length + 1)).filter fun j => a.buckets.getD j 0 ≠ 0).map fun j =>
            (bucketStart j, bucketEnd j, a.buckets.getD j 0) })

/-- A thread's report after these calls, each with its type and duration in microseconds
(`PerfStatCollector`, Reporting.cpp:398-413). -/
def collectCalls (calls : List (Nat × Int)) : PerfReport := calls.foldl (fun r c => r.add c.1 c.2) .new

/-- `logPerfStats` (Sender.cpp:461-471, Receiver.cpp:436-446): the threads' reports are merged into a new one. -/
def mergeReports (threads : List (List (Nat × Int))) : PerfReport := threads.foldl (fun r l => r.merge (collectCalls l)) .new

end Wdt
