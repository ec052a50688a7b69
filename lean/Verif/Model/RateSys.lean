import Verif.Model.Throttler
/-
Model of transfers that share a throttler (/repo/Throttler.cpp), and of when their threads write:
which bytes are charged (`sendOneByteSource`, SenderThread.cpp:316-446; `processFileCmd`,
ReceiverThread.cpp:515-575), and how transfers register (Sender.cpp:19-38, Receiver.cpp:71-112).

Simplified: that the start hook of a transfer has run before its threads do anything and the end
hook runs when they are done is taken from C32.  Sleeping ends at the earliest when it is due.
What is written outside of blocks (settings, DONE, checkpoints, heart beats) is left out.
-/
namespace Wdt

/-- One step of a thread with a block.  `header h`: writing the header of `h` bytes
(SenderThread.cpp:340-352); `data h n`: calling `limit` for `h + n` bytes and then writing `n`
bytes (SenderThread.cpp:373-405, ReceiverThread.cpp:517-536, 548-571); `footer f`
(SenderThread.cpp:428-441). -/
inductive RAct where
  | header (h : Int)
  | data (h n : Int)
  | footer (f : Int)
deriving DecidableEq, Repr

/-- A sender's steps for a block that is read in pieces of these sizes: the header is charged
with the first piece (SenderThread.cpp:353-354, 383-386). -/
def senderActs (h : Int) (sizes : List Int) (f : Option Int) : List RAct :=
  .header h ::
    (match sizes with
      | [] => []
      | s :: rest => .data h s :: rest.map (.data 0)) ++
    (match f with
      | none => []
      | some f => [.footer f])

/-- A receiver's steps for a block: `first` bytes of it were read together with the header
(ReceiverThread.cpp:506-536), the others in pieces of these sizes (lines 541-575). -/
def receiverActs (h first : Int) (sizes : List Int) : List RAct := .data h first :: sizes.map (.data 0)

/-- Where a thread is: not in `limit`; or in `limit` for `h + n` bytes of which `todo` are not
charged yet, asleep until `wake`. -/
inductive RPc where
  | idle
  | limiting (h n todo : Int) (wake : ℚ)
deriving DecidableEq

/-- A request to the throttler, for the statements: thread, amount, the time until which it
sleeps, whether the bytes were written since. -/
structure Charge where
  th : Nat
  amt : Int
  wake : ℚ
  done : Bool
deriving DecidableEq

/-- `threads` threads, thread `t` belongs to transfer `own t`. -/
structure RateCfg where
  threads : Nat
  own : Nat → Nat

/-- `running`: transfers between start and end hook.  `prog`: the rest of a thread's steps for
its block.  For the statements: `t0`, when the first of the transfers that run now started;
`log`: requests since, newest first; `hdr`, `data`, `lim`, `foot`: bytes of headers, data, of data
and headers after their `limit`, of footers that each thread wrote since; `drops`: number of
blocks that it gave up. -/
structure RateSys where
  thr : Thr
  time : ℚ := 0
  running : List Nat := []
  pc : Nat → RPc := fun _ => .idle
  prog : Nat → List RAct := fun _ => []
  t0 : ℚ := 0
  log : List Charge := []
  hdr : Nat → Int := fun _ => 0
  data : Nat → Int := fun _ => 0
  lim : Nat → Int := fun _ => 0
  foot : Nat → Int := fun _ => 0
  drops : Nat → Int := fun _ => 0

/-- Update of a function. -/
def put {α : Type} (f : Nat → α) (t : Nat) (v : α) : Nat → α := fun u => if u = t then v else f u

/-- What happens.  `tick`: time passes.  `start`, `stop`: hooks of a transfer.  `take`: a thread
has a block and its steps.  `act`: a thread's next step, for `data` entering `limit`.  `charge`: the
next request within `limit`; `now` is the clock as read before the mutex is taken.  `write`:
`limit` has returned, the thread writes, or manages to write only `m` of the bytes.  `drop`: the
thread gives up the block (read error, abort, footer not written).  `rates`: `setThrottlerRates`, by the application or
by `createSender` and `createReceiver` (WdtResourceController.cpp:384, 444). -/
inductive RateEv where
  | tick (d : ℚ)
  | start (i : Nat)
  | stop (i : Nat)
  | take (t : Nat) (acts : List RAct)
  | act (t : Nat)
  | charge (t : Nat) (now : ℚ)
  | write (t : Nat) (m : Int)
  | drop (t : Nat)
  | rates (avg peak bucket : ℚ)

/-- `startNewTransfer` (Sender.cpp:30-36), `startNewGlobalSession` (Receiver.cpp:71-80). -/
def RateSys.begin (s : RateSys) (i : Nat) : RateSys :=
  let s := { s with thr := s.thr.startTransfer s.time, running := i :: s.running }
  if s.running.length = 1 then
    { s with t0 := s.time, log := [], hdr := fun _ => 0, data := fun _ => 0, lim := fun _ => 0, foot := fun _ => 0,
             drops := fun _ => 0 }
  else s

/-- One step; `none`: cannot happen now. -/
def RateSys.step (c : RateCfg) (s : RateSys) : RateEv → Option (Except Fault RateSys)
  | .tick d => if 0 ≤ d then some (.ok { s with time := s.time + d }) else none
  | .start i => if i ∉ s.running then some (.ok (s.begin i)) else none
  | .stop i =>
    -- `endCurTransfer` (Sender.cpp:19-28), `endCurGlobalSession` (Receiver.cpp:96-112)
    if i ∈ s.running ∧ ∀ t < c.threads, c.own t = i → s.pc t = .idle ∧ s.prog t = [] then
      match s.thr.endTransfer with
      | .ok thr => some (.ok { s with thr := thr, running := s.running.erase i })
      | .error f => some (.error f)
    else none
  | .take t acts =>
    if t < c.threads ∧ c.own t ∈ s.running ∧ s.pc t = .idle ∧ s.prog t = [] then
      some (.ok { s with prog := put s.prog t acts })
    else none
  | .act t =>
    if t < c.threads ∧ c.own t ∈ s.running ∧ s.pc t = .idle then
      match s.prog t with
      | [] => none
      | .header h :: r => some (.ok { s with prog := put s.prog t r, hdr := put s.hdr t (s.hdr t + h) })
      | .footer f :: r => some (.ok { s with prog := put s.prog t r, foot := put s.foot t (s.foot t + f) })
      | .data h n :: r => some (.ok { s with prog := put s.prog t r, pc := put s.pc t (.limiting h n (h + n) s.time) })
    else none
  | .charge t now =>
    if t < c.threads then
      match s.pc t with
      | .idle => none
      | .limiting h n todo wake =>
        if 0 < todo ∧ wake ≤ now ∧ now ≤ s.time then
          let d := min s.thr.single todo
          let r := s.thr.calculateSleep d now
          some (.ok { s with thr := r.1
                             pc := put s.pc t (.limiting h n (todo - d) (now + max 0 r.2))
                             log := ⟨t, d, now + max 0 r.2, false⟩ :: s.log })
        else none
    else none
  | .write t m =>
    if t < c.threads then
      match s.pc t with
      | .idle => none
      | .limiting h n todo wake =>
        if todo ≤ 0 ∧ wake ≤ s.time ∧ 0 ≤ m ∧ m ≤ n then
          some (.ok { s with pc := put s.pc t .idle
                             prog := if m < n then put s.prog t [] else s.prog
                             data := put s.data t (s.data t + m)
                             lim := put s.lim t (s.lim t + (h + n))
                             log := s.log.map fun e => if e.th = t then { e with done := true } else e })
        else none
    else none
  | .drop t =>
    if t < c.threads ∧ s.pc t = .idle ∧ s.prog t ≠ [] then
      some (.ok { s with prog := put s.prog t [], drops := put s.drops t (s.drops t + 1) })
    else none
  | .rates a p b => some (.ok { s with thr := s.thr.setRates a p b s.time })

/-- A history from a new throttler; `none`: cannot happen. -/
def RateSys.run (c : RateCfg) (s : RateSys) : List RateEv → Option (Except Fault RateSys)
  | [] => some (.ok s)
  | e :: es => match s.step c e with
    | none => none
    | some (.error f) => some (.error f)
    | some (.ok s') => s'.run c es

end Wdt
