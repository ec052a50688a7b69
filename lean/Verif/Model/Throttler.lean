import Verif.Model.Serial
import Mathlib.Data.Rat.Floor
/-
Model of the throttler (/repo/Throttler.cpp).

Simplified: `double` is `ℚ`, that is, rounding of floating point numbers is left out;
1.2 is exactly 6/5.  Time is in seconds since the epoch of the clock.  Periodic logging is
left out.  A method that takes the mutex is one step.
-/
namespace Wdt

/-- `ThrottlerOptions` (Throttler.h:15-52) without the logging interval. -/
structure ThrOpts where
  avg : ℚ := -1
  max : ℚ := 0
  bucket : ℚ := 0
  single : Int := 1

/-- `Throttler` (Throttler.h:165-202): `startTime_`, `lastFillTime_`, `progress_`,
`tokenBucket_` (an integer), `refCount_`, `avgRatePerSec_`, `bucketRatePerSec_`,
`tokenBucketLimit_`, `singleRequestLimit_`. -/
structure Thr where
  start : ℚ := 0
  lastFill : ℚ := 0
  progress : ℚ := 0
  tokens : Int := 0
  refs : Int := 0
  avg : ℚ
  rate : ℚ
  limit : ℚ
  single : Int
deriving DecidableEq

/-- Conversion of a `double` to `int64_t`: towards zero.  Simplified: no overflow. -/
def truncQ (q : ℚ) : Int := if q < 0 then ⌈q⌉ else ⌊q⌋

/-- `configureOptions` (Throttler.cpp:25-38): peak rate and bucket limit. -/
def configureOptions (avg peak bucket : ℚ) : ℚ × ℚ :=
  let peak := if peak < avg ∧ peak ≥ 0 then 6 / 5 * avg else peak
  (peak, if bucket ≤ 0 ∧ peak > 0 then 1 / 4 * 2 * peak else bucket)

/-- The constructor (Throttler.cpp:40-67); it does not call `configureOptions`. -/
def Thr.make (o : ThrOpts) : Except Fault Thr :=
  if o.single ≤ 0 then .error .check
  else .ok { avg := o.avg, rate := o.max, limit := if o.bucket > 0 then o.bucket else 1 / 4 * 2 * o.max, single := o.single }

/-- `resetState` (Throttler.cpp:235-242). -/
def Thr.reset (t : Thr) (now : ℚ) : Thr := { t with start := now, lastFill := now, progress := 0, tokens := 0 }

/-- `setThrottlerRates` (Throttler.cpp:69-92). -/
def Thr.setRates (t : Thr) (avg peak bucket now : ℚ) : Thr :=
  { t.reset now with avg := avg, rate := (configureOptions avg peak bucket).1, limit := (configureOptions avg peak bucket).2 }

/-- `startTransfer` (Throttler.cpp:227-233). -/
def Thr.startTransfer (t : Thr) (now : ℚ) : Thr :=
  let t := if t.refs = 0 then t.reset now else t
  { t with refs := t.refs + 1 }

/-- `endTransfer` (Throttler.cpp:244-248). -/
def Thr.endTransfer (t : Thr) : Except Fault Thr :=
  if t.refs > 0 then .ok { t with refs := t.refs - 1 } else .error .check

/-- `averageThrottler` (Throttler.cpp:205-225). -/
def Thr.averageThrottler (t : Thr) (now : ℚ) : ℚ :=
  let elapsed := now - t.start
  if t.avg ≤ 0 then -1
  else if t.progress > t.avg * elapsed then t.progress / t.avg - elapsed
  else -1

/-- Filling and using the token bucket (Throttler.cpp:158-176): state and time to
sleep. -/
def Thr.useBucket (t : Thr) (d : Int) (now : ℚ) : Thr × ℚ :=
  let tokens := truncQ (t.tokens + (now - t.lastFill) * t.rate)
  let tokens := if (tokens : ℚ) > t.limit then truncQ t.limit else tokens
  let t := { t with lastFill := now, tokens := tokens - d }
  if t.tokens < 0 then (t, -1 * t.tokens / t.rate) else (t, -1)

/-- `calculateSleep` (Throttler.cpp:143-178). -/
def Thr.calculateSleep (t : Thr) (d : Int) (now : ℚ) : Thr × ℚ :=
  if t.refs ≤ 0 then (t, -1)
  else
    let t := { t with progress := t.progress + d }
    let s := t.averageThrottler now
    if s > 0 then (t, s)
    else if t.rate > 0 ∧ t.limit > 0 then t.useBucket d now
    else (t, -1)

/-- `limitInternal` (Throttler.cpp:102-117): the sizes of the single requests. -/
def limitChunks (single : Int) : Nat → Int → List Int
  | 0, _ => []
  | fuel + 1, rest => if rest > 0 then min single rest :: limitChunks single fuel (rest - min single rest) else []

/-- What happens to a throttler.  `charge`: `limitSingleRequest` (Throttler.cpp:119-136),
which reads the clock before it takes the mutex, so that the times of successive charges
need not increase. -/
inductive TEv where
  | charge (d : Int) (now : ℚ)
  | start (now : ℚ)
  | stop
  | setRates (avg peak bucket now : ℚ)

/-- One step. -/
def Thr.step (t : Thr) : TEv → Except Fault Thr
  | .charge d now => if d > t.single then .error .check else .ok (t.calculateSleep d now).1
  | .start now => .ok (t.startTransfer now)
  | .stop => t.endTransfer
  | .setRates a p b now => .ok (t.setRates a p b now)

/-- A history. -/
def Thr.run : Thr → List TEv → Except Fault Thr
  | t, [] => .ok t
  | t, e :: es => match t.step e with
    | .error f => .error f
    | .ok t' => t'.run es

/-- When the caller of a charge continues: at once, or after sleeping
(Throttler.cpp:128-135). -/
def Thr.resume (t : Thr) (d : Int) (now : ℚ) : ℚ := now + max 0 (t.calculateSleep d now).2

end Wdt
