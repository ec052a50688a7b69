import Verif.Model.Sockets
/-
The timeouts that the operating system is given for a connection (/repo/util/WdtSocket.cpp:727-760).
-/
namespace Wdt

/-- `struct timeval`. -/
structure TimeVal where
  sec : Int
  usec : Int
deriving DecidableEq, Repr

/-- Timeouts of a socket as the system knows them: `SO_RCVTIMEO` and `SO_SNDTIMEO`, both 0 for a new
socket. -/
structure SockTv where
  rcv : TimeVal := ⟨0, 0⟩
  snd : TimeVal := ⟨0, 0⟩
deriving DecidableEq, Repr

/-- The value that is set for a timeout in milliseconds (WdtSocket.cpp:742-744, 753-755). -/
def timevalOf (millis : Int) : TimeVal := ⟨millis.tdiv 1000, millis.tmod 1000 * 1000⟩

/-- `setsockopt` with a timeout (WdtSocket.cpp:745-746, 756-757): the system refuses (EDOM) what is not
a number of microseconds below a second.  Left out: other reasons to fail; the result is only logged. -/
def setTv (old tv : TimeVal) : TimeVal := if 0 ≤ tv.usec ∧ tv.usec < 1000000 then tv else old

/-- `setSocketTimeouts` (WdtSocket.cpp:738-760), called when a connection was made or accepted
(ClientSocket.cpp:173, ServerSocket.cpp:293). -/
def setSocketTimeouts (interval readTimeout writeTimeout : Int) (s : SockTv) : SockTv :=
  let r := effTimeout interval readTimeout
  let s := if 0 < r then { s with rcv := setTv s.rcv (timevalOf r) } else s
  let w := effTimeout interval writeTimeout
  if 0 < w then { s with snd := setTv s.snd (timevalOf w) } else s

end Wdt
