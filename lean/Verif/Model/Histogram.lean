import Verif.Model.Serial
import Mathlib.Data.Rat.Defs
import Mathlib.Algebra.Order.Field.Rat
/-
Model of the counters and histograms of /repo/util/Stats.h and /repo/util/Stats.cpp: one counter,
one histogram, and histograms that many threads fill while another one reads them.

Simplified: `int64_t` and `int32_t` are `Int` without overflow, `double` is `ℚ`; the standard
deviation and the printing are left out.
-/
namespace Wdt

/-- `Counter` (Stats.h:146-154, 218). -/
structure Ctr where
  count : Int := 0
  realMin : Int := 0
  min : Int := 0
  max : Int := 0
  sum : Int := 0
  sumSq : Int := 0
deriving DecidableEq, Repr

/-- `Counter::record` (Stats.cpp:44-69). -/
def Ctr.record (c : Ctr) (v : Int) : Ctr :=
  let count := c.count + 1
  let (rm, mn, mx) := if count = 1 then (v, v, v) else (c.realMin, c.min, c.max)
  { count := count
    sum := c.sum + v
    min := if v ≠ 0 ∧ (mn = 0 ∨ v < mn) then v else mn
    realMin := if v < rm then v else rm
    max := if v > mx then v else mx
    sumSq := c.sumSq + if v > 2147483647 ∨ v < -2147483648 then 0 else v * v }

/-- `Counter::merge` (Stats.cpp:71-82). -/
def Ctr.merge (a c : Ctr) : Ctr :=
  { a with
    count := a.count + c.count
    min := if c.min ≠ 0 ∧ c.min < a.min then c.min else a.min
    max := if c.max > a.max then c.max else a.max
    sum := a.sum + c.sum
    sumSq := a.sumSq + c.sumSq }

/-- `Counter::reset` (Stats.h:207-209). -/
def Ctr.reset (c : Ctr) : Ctr := { c with count := 0, min := 0, max := 0, sum := 0, sumSq := 0 }

/-- `kHistogramBuckets` (Stats.h:321-331). -/
def bucketBounds : List Int :=
  [1, 2, 3, 4, 5, 6, 7, 8, 9, 10, 11, 12, 14, 16, 18, 20, 25, 30, 35, 40, 45, 50, 60, 70, 80, 90, 100,
   120, 140, 160, 180, 200, 250, 300, 350, 400, 450, 500, 600, 700, 800, 900, 1000,
   2000, 3000, 4000, 5000, 7500, 10000, 20000, 30000, 40000, 50000, 75000, 100000]

/-- `kLastIndex` (Stats.h:336-337). -/
def histLast : Nat := bucketBounds.length

/-- `kFirstValue` and `kLastValue` (Stats.cpp:24-26). -/
def histFirstValue : Int := 1

/-- See `histFirstValue`. -/
def histLastValue : Int := 100000

/-- The loop of `initHistLookup` (Stats.cpp:32-37): entry `n` of the table and `idx` after it. -/
def lookupAt : Nat → Nat
  | 0 => if (0 : Int) ≥ bucketBounds.getD 0 0 then 1 else 0
  | n + 1 =>
    let idx := lookupAt n
    if ((n + 1 : Nat) : Int) ≥ bucketBounds.getD idx 0 then idx + 1 else idx

/-- `Histogram` (Stats.h:339-345, Stats.cpp:147-156). -/
structure Histo where
  ctr : Ctr := {}
  data : List Int := List.replicate (histLast + 1) 0
  divider : Int := 1
  offset : Int := 0
deriving DecidableEq, Repr

/-- The bucket of a value (Stats.cpp:120-133); `none` is a division by 0. -/
def Histo.index (h : Histo) (value : Int) : Option Nat :=
  if h.divider = 0 then none else
  let scaled := (value - h.offset).tdiv h.divider
  if scaled ≥ histLastValue then some histLast
  else if scaled ≥ histFirstValue then some (lookupAt scaled.toNat)
  else some 0

/-- `Histogram::record` (Stats.cpp:118-138). -/
def Histo.record (h : Histo) (value : Int) : Except Fault Histo :=
  match h.index value with
  | none => .error .ub
  | some i => .ok { h with ctr := h.ctr.record value, data := h.data.modify i (· + 1) }

/-- Calls of `record` one after the other. -/
def Histo.recordAll : Histo → List Int → Except Fault Histo
  | h, [] => .ok h
  | h, v :: vs =>
    match h.record v with
    | .error e => .error e
    | .ok h' => h'.recordAll vs

/-- `Histogram::merge` (Stats.cpp:140-145). -/
def Histo.merge (a h : Histo) : Histo := { a with ctr := a.ctr.merge h.ctr, data := List.zipWith (· + ·) a.data h.data }

/-- `Histogram::reset` (Stats.cpp:281-284). -/
def Histo.reset (h : Histo) : Histo := { h with ctr := h.ctr.reset, data := List.replicate (histLast + 1) 0 }

/-- The variables of the loop in `calcPercentile` behind it (Stats.cpp:179-211): `prev`, `prevPerc`, `cur`
and `perc`. -/
structure PercAt where
  prev : Int
  prevPerc : ℚ
  cur : Int
  perc : ℚ
deriving DecidableEq

/-- The loop of `calcPercentile` over the buckets and their counts, and the assignments for the case that nothing was found
(Stats.cpp:193-211). -/
def Histo.percLoop (h : Histo) (p : ℚ) : List (Int × Int) → Int → ℚ → Int → PercAt
  | [], prev, prevPerc, _ => ⟨prev, prevPerc, h.ctr.max, 100⟩
  | (b, n) :: l, prev, prevPerc, total =>
    let cur := b * h.divider + h.offset
    let total := total + n
    let perc : ℚ := 100 * total / h.ctr.count
    if cur > h.ctr.max then ⟨prev, prevPerc, h.ctr.max, 100⟩
    else if perc ≥ p then ⟨prev, prevPerc, cur, perc⟩
    else h.percLoop p l cur perc total

/-- `calcPercentile` (Stats.cpp:169-217).  With no data the code may compute 0/0; here this is 0. -/
def Histo.percentile (h : Histo) (p : ℚ) : ℚ :=
  if p ≥ 100 then h.ctr.max
  else if p ≤ 0 then h.ctr.realMin
  else
    let r := h.percLoop p (bucketBounds.zip h.data) 0 0 0
    let prev := if r.prev < h.ctr.realMin then h.ctr.realMin else r.prev
    prev + (p - r.prevPerc) * (r.cur - prev) / (r.perc - r.prevPerc)

/-- The two histograms of a thread (`Hold2`, Stats.h:435-456). -/
abbrev Hold2 := Histo × Histo

/-- `Hold2::get` (Stats.h:449-451); the index 1 is `true`. -/
def Hold2.get (x : Hold2) (i : Bool) : Histo := if i then x.2 else x.1

/-- Changes one of the two. -/
def Hold2.set (x : Hold2) (i : Bool) (h : Histo) : Hold2 := if i then (x.1, h) else (h, x.2)

/-- `ThreadLocalHistogram` (Stats.h:400-416, 468-553) with a fixed number of threads. -/
structure TlHist where
  /-- `param_` -/
  scale : Int
  /-- `ptr_` -/
  active : Bool := false
  /-- `data_`; `none`: the thread has recorded nothing yet, or has ended -/
  held : List (Option Hold2)
  /-- the index that a thread has read in `getActiveCounter`, while it is inside `record` -/
  inside : List (Option Bool)
  /-- the thread whose histogram the reader has merged and not yet reset; as `accessAllThreads` holds a lock, no
  thread makes or gives up its histograms meanwhile -/
  pending : Option Nat := none
  /-- `aggregated_`, which is not made with `param_` -/
  aggregated : Histo := {}
deriving DecidableEq, Repr

/-- What can happen.  `enter` and `store` are the two halves of `record` (Stats.h:482-497): read the active
index and record in that histogram.  The reader (`readAndReset`, Stats.h:507-531; `swapAndRead` and `process`,
Stats.h:534-541, 579-597) does `swap`, then `take` and `clear` for each thread, then `deliver` into a histogram of
some scale, which in `process` is always 1.  `exit` is the end of a thread (Stats.h:443-447).
Simplified: recording in one histogram is one step. -/
inductive TlEvent where
  | enter (t : Nat)
  | store (t : Nat) (v : Int)
  | swap
  | take (t : Nat)
  | clear (t : Nat)
  | deliver (scale : Int)
  | exit (t : Nat)
deriving DecidableEq, Repr

/-- One step and what it delivers; `none`: it is not possible now. -/
def TlHist.step (s : TlHist) : TlEvent → Option (Except Fault (TlHist × Option Histo))
  | .enter t =>
    match s.held[t]?, s.inside[t]? with
    | some (some _), some none => some (.ok ({ s with inside := s.inside.set t (some s.active) }, none))
    | some none, some none =>
      if s.pending.isSome then none else
      some (.ok ({ s with inside := s.inside.set t (some s.active)
                          held := s.held.set t (some ({ divider := s.scale }, { divider := s.scale })) }, none))
    | _, _ => none
  | .store t v =>
    match s.held[t]?, s.inside[t]? with
    | some (some x), some (some i) =>
      match (x.get i).record v with
      | .error e => some (.error e)
      | .ok h => some (.ok ({ s with held := s.held.set t (some (x.set i h)), inside := s.inside.set t none }, none))
    | _, _ => none
  | .swap => if s.pending.isSome then none else some (.ok ({ s with active := !s.active }, none))
  | .take t =>
    match s.held[t]? with
    | some (some x) =>
      if s.pending.isSome then none else
      some (.ok ({ s with aggregated := s.aggregated.merge (x.get (!s.active)), pending := some t }, none))
    | _ => none
  | .clear t =>
    match s.held[t]? with
    | some (some x) =>
      if s.pending = some t then
        some (.ok ({ s with held := s.held.set t (some (x.set (!s.active) (x.get (!s.active)).reset)), pending := none }, none))
      else none
    | _ => none
  | .deliver scale =>
    if s.pending.isSome then none else
    some (.ok ({ s with aggregated := s.aggregated.reset }, some (({ divider := scale } : Histo).merge s.aggregated)))
  | .exit t =>
    match s.held[t]?, s.inside[t]? with
    | some (some x), some none =>
      if s.pending.isSome then none else
      some (.ok ({ s with aggregated := (s.aggregated.merge x.1).merge x.2, held := s.held.set t none }, none))
    | _, _ => none

/-- Any number of steps and all that they deliver. -/
def TlHist.run : TlHist → List TlEvent → Option (Except Fault (TlHist × List Histo))
  | s, [] => some (.ok (s, []))
  | s, e :: es =>
    match s.step e with
    | none => none
    | some (.error f) => some (.error f)
    | some (.ok (s', d)) =>
      match s'.run es with
      | some (.ok (s'', ds)) => some (.ok (s'', d.toList ++ ds))
      | r => r

/-- At the beginning, `n` threads. -/
def TlHist.start (scale : Int) (n : Nat) : TlHist := { scale := scale, held := List.replicate n none, inside := List.replicate n none }

end Wdt
