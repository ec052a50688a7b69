import Verif.Model.ErrorCode
import Verif.Model.ThreadsController
/-
Model of the sockets as far as they wait, listen and connect: ServerSocket.cpp, ClientSocket.cpp,
`WdtSocket::ioWithAbortCheck`, `ConditionGuardImpl::wait` and `connectToReceiver`.

Times are milliseconds.  Simplifications: system calls other than `socket`, `bind`, `listen`,
`connect`, `getaddrinfo`, `getsockname`, `poll`, `read`, `write` and waiting take no time; `poll`
does not fail and is not interrupted (an interruption leads to the same loop with the time that is
left); one round of a loop around `poll` takes at least a millisecond; encryption is elsewhere
(`EncSocket`).
-/
namespace Wdt

/-! ### Waiting -/

/-- Has something happened by time `t`? -/
def isBy (o : Option Int) (t : Int) : Bool :=
  match o with
  | some r => decide (r ≤ t)
  | none => false

/-- `poll` at time `now` with timeout `p` (a negative one means none) for an event that happens at
time `ready`: was there the event, and when does `poll` return (poll(2)). -/
def pollOnce (ready : Option Int) (now p : Int) : Except Fault (Bool × Int) :=
  match ready with
  | some r =>
    if r ≤ now then .ok (true, now)
    else if p < 0 ∨ r ≤ now + p then .ok (true, r)
    else .ok (false, now + max p 1)
  | none => if p < 0 then .error .hang else .ok (false, now + max p 1)

/-- How a wait ended. -/
inductive WOut where
  | ready | timeout | abort
deriving DecidableEq, Repr

theorem pollOnce_later {ready : Option Int} {now p now' : Int} (h : pollOnce ready now p = .ok (false, now')) :
    now < now' := by
  unfold pollOnce at h
  split at h
  · split at h
    · cases h
    · split at h
      · cases h
      · cases h; omega
  · split at h
    · cases h
    · cases h; omega

/-- The loop around `poll` in `acceptNextConnection` (ServerSocket.cpp:229-268) that started at
time `start`; `interval` is `abort_check_interval_millis`, `abortAt` the time from which
`shouldAbort` is true. -/
def acceptWait (interval timeout : Int) (ready abortAt : Option Int) (start now : Int) : Except Fault (WOut × Int) :=
  if timeout ≤ now - start then .ok (.timeout, now)
  else if 0 < interval ∧ isBy abortAt now = true then .ok (.abort, now)
  else
    match h : pollOnce ready now
        (if 0 < interval then min (timeout - (now - start)) interval else timeout - (now - start)) with
    | .error f => .error f
    | .ok (true, now') => .ok (.ready, now')
    | .ok (false, now') => acceptWait interval timeout ready abortAt start now'
termination_by (timeout - (now - start)).toNat
decreasing_by have := pollOnce_later h; omega

/-- The loop around `poll` in `ClientSocket::connect` (ClientSocket.cpp:92-134). -/
def connectWait (interval timeout : Int) (ready abortAt : Option Int) (start now : Int) : Except Fault (WOut × Int) :=
  if isBy abortAt now = true then .ok (.abort, now)
  else if timeout ≤ now - start then .ok (.timeout, now)
  else
    match h : pollOnce ready now (min (timeout - (now - start)) interval) with
    | .error f => .error f
    | .ok (true, now') => .ok (.ready, now')
    | .ok (false, now') => connectWait interval timeout ready abortAt start now'
termination_by (timeout - (now - start)).toNat
decreasing_by have := pollOnce_later h; omega

/-- `ConditionGuardImpl::wait` (ThreadsController.cpp:16-39), `rest` being `remainingTime`; returns
whether it was notified and when it returns. -/
def condWait (interval : Int) (notifyAt abortAt : Option Int) (rest now : Int) : Bool × Int :=
  if rest ≤ 0 then (false, now)
  else
    let w := if 0 < interval then min rest interval else rest
    match notifyAt with
    | some r =>
      if r < now + w then (true, max r now)
      else if isBy abortAt (now + w) then (false, now + w)
      else condWait interval notifyAt abortAt (rest - w) (now + w)
    | none =>
      if isBy abortAt (now + w) then (false, now + w)
      else condWait interval notifyAt abortAt (rest - w) (now + w)
termination_by rest.toNat
decreasing_by all_goals (split <;> omega)

/-- What one call of `read` or `write` returns: a number of bytes, end of file, EINTR or EAGAIN,
another error (WdtSocket.cpp:546-568). -/
inductive IoRet where
  | bytes (k : Int)
  | eof
  | again
  | fail
deriving DecidableEq, Repr

/-- A call: what it returns and how long it takes. -/
structure IoCall where
  ret : IoRet
  dur : Int
deriving DecidableEq, Repr

/-- `getEffectiveTimeout` (WdtSocket.cpp:727-736); a timeout of the socket that is not positive is
not set (741, 752): calls then block without limit. -/
def effTimeout (interval networkTimeout : Int) : Int :=
  if interval ≤ 0 then networkTimeout
  else if networkTimeout ≤ 0 then interval
  else min networkTimeout interval

/-- `ioWithAbortCheck` (WdtSocket.cpp:536-588) with the results of the calls it makes, `t` the time
since it started.  `none`: it has used up the calls and goes on. -/
def ioLoop (interval timeoutMs : Int) (tryFull : Bool) (abortAt : Option Int) (numBytes : Int) :
    Int → Int → List IoCall → Option (Int × Int)
  | done, t, calls =>
    if numBytes ≤ done then some (done, t)
    else
      match calls with
      | [] => none
      | c :: rest =>
        let t' := t + c.dur
        let goOn (d : Int) : Option (Int × Int) :=
          if 0 < interval ∧ isBy abortAt t' = true then some (if 0 < d then d else -1, t')
          else if 0 < timeoutMs ∧ timeoutMs ≤ t' then some (if 0 < d then d else -1, t')
          else ioLoop interval timeoutMs tryFull abortAt numBytes d t' rest
        match c.ret with
        | .fail => some (if 0 < done then done else -1, t')
        | .eof => some (done, t')
        | .bytes k => if tryFull then goOn (done + k) else some (done + k, t')
        | .again => goOn done
termination_by _ _ calls => calls.length

/-! ### Listening and accepting -/

/-- What the system answers.  `lookup`: address families that `getaddrinfo` gives for a port
(AI_PASSIVE), in order, `none` if it fails; `attempt k fam port`: does the `k`-th attempt to
`socket`, `bind` and `listen` succeed; `pick k`: the port that the system chooses when the port is
0; `name k`: does `getsockname` succeed. -/
structure LHost where
  lookup : Nat → Option (List Nat)
  attempt : Nat → Nat → Nat → Bool
  pick : Nat → Nat
  name : Nat → Bool

/-- A listening socket: number, family, port it is bound to. -/
structure LFd where
  fd : Nat
  fam : Nat
  port : Nat
deriving DecidableEq, Repr

/-- `ServerSocket` with what the system knows of it: `port` of `socket_`, `listeningFds_`; all
listening sockets that are open; number of attempts so far. -/
structure LSock where
  port : Nat
  fds : List LFd := []
  openFds : List LFd := []
  tries : Nat := 0
deriving DecidableEq, Repr

/-- A socket listens and is put into `listeningFds_` (ServerSocket.cpp:203). -/
def LSock.add (s : LSock) (f : LFd) : LSock :=
  { s with fds := s.fds ++ [f], openFds := s.openFds ++ [f], tries := s.tries + 1 }

/-- The loop in `listen` once the port is known (ServerSocket.cpp:159-204), `skip` being
`addressTypeAlreadyBound` (0: AF_UNSPEC). -/
def bindRest (h : LHost) (port skip : Nat) : List Nat → LSock → LSock
  | [], s => s
  | fam :: rest, s =>
    if fam = skip then bindRest h port skip rest s
    else if h.attempt s.tries fam port then
      bindRest h port skip rest (s.add ⟨s.tries, fam, port⟩)
    else bindRest h port skip rest { s with tries := s.tries + 1 }

/-- The loop in `listen` while the port is 0: at the first success the port is known and the list
is replaced (ServerSocket.cpp:159-204, 93-119). -/
def bindFirst (h : LHost) : List Nat → LSock → LSock
  | [], s => s
  | fam :: rest, s =>
    if h.attempt s.tries fam 0 then
      let f : LFd := ⟨s.tries, fam, h.pick s.tries⟩
      if h.name s.tries then
        match h.lookup f.port with
        | some (a :: l) =>
          bindRest h f.port fam (a :: l) (LSock.add { s with port := f.port } f)
        | _ => bindFirst h rest { s with tries := s.tries + 1 }
      else bindFirst h rest { s with tries := s.tries + 1 }
    else bindFirst h rest { s with tries := s.tries + 1 }

/-- `ServerSocket::listen` (ServerSocket.cpp:121-211). -/
def listenSock (h : LHost) (staticPorts : Bool) (s : LSock) : ErrCode × LSock :=
  if s.fds ≠ [] then (eOK, s)
  else
    let port := if staticPorts then s.port else 0
    match h.lookup port with
    | none => (eCONN_ERROR, s)
    | some l =>
      let s' := if port = 0 then bindFirst h l s else bindRest h port 0 l s
      if s'.fds = [] then (eCONN_ERROR_RETRYABLE, s') else (eOK, s')

/-- `closeAllNoCheck` as far as listening sockets are concerned (ServerSocket.cpp:30-49). -/
def closeAll (s : LSock) : LSock :=
  { s with openFds := s.openFds.filter fun f => !s.fds.contains f, fds := [] }

/-- Where the search for a listening socket with a connection starts (ServerSocket.cpp:270-276). -/
def startIndex (last n : Nat) (curFirst : Bool) : Nat :=
  if n ≤ last then 0 else if curFirst then last else (last + 1) % n

/-- The search (ServerSocket.cpp:278-299), `count` rounds of it: the socket from which `accept`
takes a connection, if there is any, and the new `lastCheckedPollIndex_`. -/
def scanFds (n : Nat) (ready : Nat → Bool) : Nat → Nat → Option Nat × Nat
  | 0, i => (none, i)
  | count + 1, i => if ready i then (some i, i) else scanFds n ready count ((i + 1) % n)

/-- One call of `acceptNextConnection` after `poll` has returned (ServerSocket.cpp:270-301). -/
def acceptScan (n last : Nat) (curFirst : Bool) (ready : Nat → Bool) : Option Nat × Nat :=
  scanFds n ready n (startIndex last n curFirst)

/-! ### Connecting -/

/-- How an address reacts: no socket can be made for it, or the connection fails at once; it is
connected at once; the attempt is pending, ends `after` so many milliseconds (or never), with or
without success. -/
inductive AddrAns where
  | fails
  | connects
  | pending (after : Option Int) (ok : Bool)
deriving DecidableEq, Repr

/-- Options of a sender thread. -/
structure ConnOpts where
  interval : Int := 200
  connectTimeout : Int := 1000
  maxRetries : Int := 20
deriving DecidableEq, Repr

/-- Result of `ClientSocket::connect`: the error code, the number of the address (with OK), the
time. -/
structure ConnRes where
  code : ErrCode
  addr : Nat := 0
  time : Int
deriving DecidableEq, Repr

/-- The loop over the addresses in `ClientSocket::connect` (ClientSocket.cpp:58-176), from address
number `i` on. -/
def connectAddrs (o : ConnOpts) (abortAt : Option Int) : Nat → List AddrAns → Int → Except Fault ConnRes
  | _, [], now => .ok { code := eCONN_ERROR_RETRYABLE, time := now }
  | i, .fails :: rest, now => connectAddrs o abortAt (i + 1) rest now
  | i, .connects :: _, now => .ok { code := eOK, addr := i, time := now }
  | i, .pending after good :: rest, now =>
    match connectWait o.interval o.connectTimeout (after.map (now + ·)) abortAt now now with
    | .error f => .error f
    | .ok (.abort, now') => .ok { code := eABORT, time := now' }
    | .ok (.timeout, now') => .ok { code := eCONN_ERROR_RETRYABLE, time := now' }
    | .ok (.ready, now') =>
      if good then .ok { code := eOK, addr := i, time := now' } else connectAddrs o abortAt (i + 1) rest now'

/-- `connectToReceiver` (SenderThread.cpp:35-106) given what each call of `connect` returns and
whether the thread is to be aborted after it; `left` attempts.  Result: error code and number of
attempts made. -/
def connectTries (try_ : Nat → ErrCode) (aborted : Nat → Bool) : Nat → Nat → ErrCode × Nat
  | 0, k => (eCONN_ERROR, k)
  | left + 1, k =>
    if try_ k = eOK then (eOK, k + 1)
    else if try_ k = eCONN_ERROR then (eCONN_ERROR, k + 1)
    else if aborted k then (eABORT, k + 1)
    else connectTries try_ aborted left (k + 1)

/-- With the number of attempts that `max_retries` gives (SenderThread.cpp:69-73). -/
def connectToReceiver (o : ConnOpts) (try_ : Nat → ErrCode) (aborted : Nat → Bool) : ErrCode × Nat :=
  connectTries try_ aborted (if o.maxRetries < 1 then 1 else o.maxRetries.toNat) 0

end Wdt
