import Verif.Model.CmdLine
import Verif.Model.Protocol
import Verif.Model.FileByteSource
import Verif.Model.Throttler
import Verif.Model.ErrorCode
/-
The buffers of the threads of a transfer: from the option `buffer_size` to the memory that a thread
works with (/repo/util/CommonImpl.cpp, /repo/WdtThread.h:28-42, /repo/util/ThreadsController.h:271-281).
-/
namespace Wdt

/-- A `Buffer` (CommonImpl.h:20-46); `data` is `none` for the null pointer. -/
structure ThrBuf where
  data : Option Bytes := none
  size : Int := 0
  isAligned : Bool := false
deriving DecidableEq, Repr

/-- `posix_memalign` (CommonImpl.cpp:19): asked for so many bytes, it finds some memory, with whatever it
contains, or fails. -/
abbrev MemOS := Nat → Option Bytes

/-- Conversion of an `int64_t` to `size_t`, as for the last argument of `posix_memalign`
(CommonImpl.cpp:19). -/
def toSizeT (v : Int) : Nat := (v % 18446744073709551616).toNat

/-- `Buffer::Buffer` (CommonImpl.cpp:13-39), with `HAS_POSIX_MEMALIGN`.  Simplified: a failing
`posix_memalign` leaves the pointer null, as it does in glibc. -/
def newBuffer (mem : MemOS) (size : Int) : Except Fault ThrBuf :=
  if size.tmod kDiskBlock ≠ 0 then .error .check
  else match mem (toSizeT size) with
    | none => .ok {}
    | some d => .ok { data := some d, size := size, isAligned := true }

/-- What a thread can access through `buf_` (WdtThread.h:38). -/
def ThrBuf.bytes (b : ThrBuf) : Bytes := b.data.getD []

/-- The beginning of `start` of a sender or receiver thread (SenderThread.cpp:957-961,
ReceiverThread.cpp:984-988): without a buffer the thread stores an error for the report and returns at
once, without the steps at its end; `none`: it goes on. -/
def threadStart (b : ThrBuf) : Option ErrCode := if b.data = none then some eMEMORY_ALLOCATION_ERROR else none

/-- The buffers of the threads that `makeThreads` (ThreadsController.h:271-281, WdtThread.h:28-42,
CommonImpl.cpp:57-64) makes, one after the other; there is one answer of `posix_memalign` for each. -/
def makeBuffers (size : Int) : List MemOS → Except Fault (List ThrBuf)
  | [] => .ok []
  | mem :: mems => match newBuffer mem size with
    | .error f => .error f
    | .ok b => match makeBuffers size mems with
      | .error f => .error f
      | .ok bs => .ok (b :: bs)

/-- The buffers of a transfer for which `buffer_size` (WdtOptions.h:114) was set to `opt`: `init` of the
receiver and `start` of the sender correct the option before they make the threads (Receiver.cpp:122, 199,
Sender.cpp:318, 345). -/
def transferBuffers (opt : Int) (mems : List MemOS) : Except Fault (List ThrBuf) :=
  makeBuffers (updateBufferSize kMaxHeader kDiskBlock opt) mems

/-- Rates that a user may set, in megabytes (WdtOptions.h:136-152); doubles as in `Throttler.lean`. -/
structure RateOpts where
  avgMb : ℚ := -1
  maxMb : ℚ := 0
  bucketMb : ℚ := 0

/-- `getThrottlerOptions` (WdtOptions.cpp:76-85). -/
def throttlerOptions (r : RateOpts) (bufferSize : Int) : ThrOpts :=
  { avg := r.avgMb * 1048576, max := r.maxMb * 1048576, bucket := r.bucketMb * 1048576, single := bufferSize }

/-- What a sender makes in `start` before its threads run: the corrected option, its throttler, unless it
was given one (Sender.cpp:334-339, WdtBase.cpp:179-188), then its threads (Sender.cpp:318, 345). -/
def senderStart (opt : Int) (r : RateOpts) (given : Option Thr) (mems : List MemOS) : Except Fault (Thr × List ThrBuf) :=
  match given with
  | some t => match transferBuffers opt mems with
    | .error f => .error f
    | .ok bs => .ok (t, bs)
  | none => match Thr.make (throttlerOptions r (updateBufferSize kMaxHeader kDiskBlock opt)) with
    | .error f => .error f
    | .ok t => match transferBuffers opt mems with
      | .error f => .error f
      | .ok bs => .ok (t, bs)

end Wdt
