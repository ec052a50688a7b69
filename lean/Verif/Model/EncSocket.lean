import Verif.Model.ReceiverStream
/-
Model of encrypted socket I/O (/repo/util/WdtSocket.cpp:170-371, 377-522,
609-645 and /repo/util/EncryptionUtils.cpp:281-472).

Simplified: OpenSSL is represented by a `Cipher`: a byte-wise encryption that
depends on the initialisation vector and the position (AES in CTR and GCM mode
are such stream ciphers: `EVP_CIPHER_block_size` is 1, lines 312, 432), and a tag
that depends on the vector and on the bytes processed under it; OpenSSL calls do
not fail.  The key is part of the `Cipher`.  Socket writes succeed completely.
Both sides have exchanged the encryption settings (lines 44-121; the message
itself is in `Model/Protocol.lean`), so that they start with the same
initialisation vector and tag interval.  Aborts are left out.
-/
namespace Wdt

/-- What is used of OpenSSL. -/
structure Cipher where
  enc : Bytes → Nat → UInt8 → UInt8
  dec : Bytes → Nat → UInt8 → UInt8
  tag : Bytes → Bytes → Bytes

/-- Length of a GCM tag (EncryptionUtils.cpp:40-42), and `kAESBlockSize`, the
length of an initialisation vector (EncryptionUtils.h:20). -/
def kTagLen : Nat := 16

/-- Encrypting a buffer: `EVP_EncryptUpdate` (EncryptionUtils.cpp:284-296). -/
def encBytes (f : Bytes → Nat → UInt8 → UInt8) (iv : Bytes) : Nat → Bytes → Bytes
  | _, [] => []
  | p, b :: bs => f iv p b :: encBytes f iv (p + 1) bs

/-- Cipher state of one direction: vector, ciphertext processed under it
(`numProcessed_` is its length), bytes of data in total (`totalWritten_`,
`totalRead_`). -/
structure EncSt where
  iv : Bytes
  done : Bytes := []
  total : Int := 0
deriving DecidableEq, Repr

/-- Writing side: cipher state, number of vectors drawn so far (`RAND_bytes`), and
what was written to the socket. -/
structure EncW where
  st : EncSt
  nextIv : Nat := 0
  out : Bytes := []
deriving DecidableEq, Repr

/-- `computeNextTagOffset` (WdtSocket.cpp:223-233). -/
def computeNextTagOffset (total interval : Int) : Int :=
  if total = 0 then interval
  else if interval - total % interval = interval then 0
  else interval - total % interval

/-- `encryptAndWrite` (WdtSocket.cpp:377-392); the caller adds to the total, here
it is done at once. -/
def encryptAndWrite (C : Cipher) (bs : Bytes) (w : EncW) : Except Fault EncW :=
  if bs = [] then .error .check
  else .ok { w with
    st := { w.st with done := w.st.done ++ encBytes C.enc w.st.iv w.st.done.length bs, total := w.st.total + bs.length },
    out := w.out ++ encBytes C.enc w.st.iv w.st.done.length bs }

/-- `writeEncryptionTag` (WdtSocket.cpp:422-441). -/
def writeEncryptionTag (C : Cipher) (w : EncW) : EncW := { w with out := w.out ++ C.tag w.st.iv w.st.done }

/-- `checkAndChangeEncryptionIv` (WdtSocket.cpp:396-420); `ivs k` is the `k`-th
random vector. -/
def changeEncryptionIv (ivs : Nat → Bytes) (T I : Int) (w : EncW) : EncW :=
  if I = 0 then w
  else if w.st.done.length + T ≤ I then w
  else { st := { w.st with iv := ivs w.nextIv, done := [] }, nextIv := w.nextIv + 1, out := w.out ++ ivs w.nextIv }

/-- `encryptAndWriteWithTag` (WdtSocket.cpp:443-482). -/
def encryptAndWriteWithTag (C : Cipher) (ivs : Nat → Bytes) (T I : Int) (bs : Bytes) (w : EncW) : Except Fault EncW :=
  if T ≤ 0 then .error .check
  else if (bs.length : Int) > T then .error .check
  else if computeNextTagOffset w.st.total T < bs.length then
    match (if computeNextTagOffset w.st.total T > 0 then
        encryptAndWrite C (bs.take (computeNextTagOffset w.st.total T).toNat) w else .ok w) with
    | .error f => .error f
    | .ok w1 =>
      if w1.st.total % T ≠ 0 then .error .check
      else encryptAndWrite C
        (bs.drop (if computeNextTagOffset w.st.total T > 0 then (computeNextTagOffset w.st.total T).toNat else 0))
        (changeEncryptionIv ivs T I (writeEncryptionTag C w1))
  else encryptAndWrite C bs w

/-- Loop of `write` (WdtSocket.cpp:506-521). -/
def writeLoop (C : Cipher) (ivs : Nat → Bytes) (T I : Int) : Nat → Bytes → EncW → Except Fault EncW
  | 0, _, _ => .error .hang
  | fuel + 1, bs, w =>
    if bs = [] then .ok w
    else match encryptAndWriteWithTag C ivs T I (bs.take T.toNat) w with
      | .error f => .error f
      | .ok w => writeLoop C ivs T I fuel (bs.drop T.toNat) w

/-- `write` (WdtSocket.cpp:484-522) once the encryption settings were written. -/
def encWrite (C : Cipher) (ivs : Nat → Bytes) (T I : Int) (bs : Bytes) (w : EncW) : Except Fault EncW :=
  if bs = [] then .error .check
  else if T ≤ 0 then encryptAndWrite C bs w
  else writeLoop C ivs T I (bs.length + 1) bs w

/-- A sequence of calls of `write`. -/
def encWrites (C : Cipher) (ivs : Nat → Bytes) (T I : Int) : List Bytes → EncW → Except Fault EncW
  | [], w => .ok w
  | bs :: l, w => match encWrite C ivs T I bs w with
    | .error f => .error f
    | .ok w => encWrites C ivs T I l w

/-- `finalizeWrites` for a cipher with tags (WdtSocket.cpp:628-645). -/
def finalizeWrites (C : Cipher) (w : EncW) : EncW := { w with out := w.out ++ C.tag w.st.iv w.st.done }

/-! ### Reading -/

/-- Reading side. `err` is `readErrorCode_`. -/
structure EncR where
  st : EncSt
  net : RNet
  err : ErrCode := eOK
deriving DecidableEq, Repr

/-- `readInternal` (WdtSocket.cpp:125-142, 536-588): the `k`-th read times out
(`io k = none`) or yields what is asked for, or for `tryFull = false` at most
`f + 1` bytes (`io k = some f`); nothing means end of file.  Simplified: a read
with `tryFull` that times out has read nothing. -/
def readInternal (io : Nat → Option Nat) (n : Int) (tryFull : Bool) (r : EncR) : Int × Bytes × EncR :=
  match io r.net.k with
  | none => (-1, [], { r with err := eWDT_TIMEOUT, net := { r.net with k := r.net.k + 1 } })
  | some f =>
    if r.net.rest.take (if tryFull then n.toNat else min (f + 1) n.toNat) = [] then
      (0, [], { r with err := eSOCKET_READ_ERROR, net := { r.net with k := r.net.k + 1 } })
    else ((r.net.rest.take (if tryFull then n.toNat else min (f + 1) n.toNat)).length,
      r.net.rest.take (if tryFull then n.toNat else min (f + 1) n.toNat),
      { r with err := eOK, net := { rest := r.net.rest.drop (if tryFull then n.toNat else min (f + 1) n.toNat), k := r.net.k + 1 } })

/-- `readAndDecrypt` (WdtSocket.cpp:235-251) with the caller's `totalRead_ += ret`. -/
def readAndDecrypt (C : Cipher) (io : Nat → Option Nat) (n : Int) (tryFull : Bool) (r : EncR) :
    Except Fault (Int × Bytes × EncR) :=
  if n ≤ 0 then .error .check
  else if (readInternal io n tryFull r).1 ≤ 0 then .ok (readInternal io n tryFull r)
  else .ok ((readInternal io n tryFull r).1,
    encBytes C.dec r.st.iv r.st.done.length (readInternal io n tryFull r).2.1,
    { (readInternal io n tryFull r).2.2 with st := { r.st with
        done := r.st.done ++ (readInternal io n tryFull r).2.1, total := r.st.total + (readInternal io n tryFull r).1 } })

/-- `readEncryptionTag` (WdtSocket.cpp:201-221); empty if there is none. -/
def readEncryptionTag (io : Nat → Option Nat) (r : EncR) : Bytes × EncR :=
  if (readInternal io kTagLen true r).1 ≠ kTagLen then
    ([], { (readInternal io kTagLen true r).2.2 with err := eENCRYPTION_ERROR })
  else ((readInternal io kTagLen true r).2.1, (readInternal io kTagLen true r).2.2)

/-- `checkAndChangeDecryptionIv` (WdtSocket.cpp:170-199); `false` = failure.  The
tag was already checked by `verifyTag`, `finish` checks the same one again. -/
def changeDecryptionIv (C : Cipher) (io : Nat → Option Nat) (T I : Int) (tag : Bytes) (r : EncR) : Bool × EncR :=
  if I = 0 then (true, r)
  else if r.st.done.length + T ≤ I then (true, r)
  else if (readInternal io kTagLen true r).1 ≠ kTagLen then (false, (readInternal io kTagLen true r).2.2)
  else if tag ≠ C.tag r.st.iv r.st.done then (false, (readInternal io kTagLen true r).2.2)
  else (true, { (readInternal io kTagLen true r).2.2 with
    st := { r.st with iv := (readInternal io kTagLen true r).2.1, done := [] } })

/-- Reading and checking a tag inside the stream (WdtSocket.cpp:280-298): `none`
is `return -1`. -/
def readTagAndIv (C : Cipher) (io : Nat → Option Nat) (T I : Int) (r : EncR) : Bool × EncR :=
  if (readEncryptionTag io r).1 = [] then (false, (readEncryptionTag io r).2)
  else if (readEncryptionTag io r).1 ≠ C.tag r.st.iv r.st.done then
    (false, { (readEncryptionTag io r).2 with err := eENCRYPTION_ERROR })
  else if (changeDecryptionIv C io T I (readEncryptionTag io r).1 (readEncryptionTag io r).2).1 = false then
    (false, { (changeDecryptionIv C io T I (readEncryptionTag io r).1 (readEncryptionTag io r).2).2 with err := eENCRYPTION_ERROR })
  else (true, (changeDecryptionIv C io T I (readEncryptionTag io r).1 (readEncryptionTag io r).2).2)

/-- The last part of `readAndDecryptWithTag` (WdtSocket.cpp:299-307); `got` was
read before the tag. -/
def readRest (C : Cipher) (io : Nat → Option Nat) (n : Int) (tryFull : Bool) (got : Bytes) (r : EncR) :
    Except Fault (Int × Bytes × EncR) :=
  match readAndDecrypt C io (n - got.length) tryFull r with
  | .error f => .error f
  | .ok (ret, data, r) =>
    if ret ≤ 0 then .ok (if (got.length : Int) > 0 then (got.length, got, r) else (ret, [], r))
    else .ok (got.length + ret, got ++ data, r)

/-- The part of `readAndDecryptWithTag` that starts at a tag (WdtSocket.cpp:280-307). -/
def readFromTag (C : Cipher) (io : Nat → Option Nat) (T I n : Int) (tryFull : Bool) (got : Bytes) (r : EncR) :
    Except Fault (Int × Bytes × EncR) :=
  if r.st.total % T ≠ 0 then .error .check
  else if (readTagAndIv C io T I r).1 = false then .ok (-1, [], (readTagAndIv C io T I r).2)
  else readRest C io n tryFull got (readTagAndIv C io T I r).2

/-- `readAndDecryptWithTag` (WdtSocket.cpp:253-308): return value, bytes stored,
state. -/
def readAndDecryptWithTag (C : Cipher) (io : Nat → Option Nat) (T I n : Int) (tryFull : Bool) (r : EncR) :
    Except Fault (Int × Bytes × EncR) :=
  if T ≤ 0 then .error .check
  else if n > T then .error .check
  else if computeNextTagOffset r.st.total T < n then
    if computeNextTagOffset r.st.total T > 0 then
      match readAndDecrypt C io (computeNextTagOffset r.st.total T) tryFull r with
      | .error f => .error f
      | .ok (ret, data, r1) =>
        if ret ≤ 0 then .ok (ret, [], r1)
        else if ret < computeNextTagOffset r.st.total T then .ok (ret, data, r1)
        else readFromTag C io T I n tryFull data r1
    else readFromTag C io T I n tryFull [] r
  else readRest C io n tryFull [] r

/-- Loop of `readWithTimeout` (WdtSocket.cpp:354-370); `got` is what was read so far. -/
def readTagLoop (C : Cipher) (io : Nat → Option Nat) (T I n : Int) (tryFull : Bool) :
    Nat → Bytes → EncR → Except Fault (Int × Bytes × EncR)
  | 0, _, _ => .error .hang
  | fuel + 1, got, r =>
    if (got.length : Int) < n then
      match readAndDecryptWithTag C io T I (min (n - got.length) T) tryFull r with
      | .error f => .error f
      | .ok (ret, data, r) =>
        if ret ≤ 0 then .ok (if (got.length : Int) > 0 then (got.length, got, r) else (ret, [], r))
        else if ret < min (n - got.length) T then .ok (got.length + ret, got ++ data, r)
        else readTagLoop C io T I n tryFull fuel (got ++ data) r
    else .ok (got.length, got, r)

/-- `readWithTimeout` (WdtSocket.cpp:310-371) once the encryption settings were
read: return value, bytes, state. -/
def encRead (C : Cipher) (io : Nat → Option Nat) (T I n : Int) (tryFull : Bool) (r : EncR) :
    Except Fault (Int × Bytes × EncR) :=
  if n ≤ 0 then .error .check
  else if r.err ≠ eOK ∧ r.err ≠ eWDT_TIMEOUT then .ok (-1, [], r)
  else if T ≤ 0 then readAndDecrypt C io n tryFull { r with err := eOK }
  else readTagLoop C io T I n tryFull (n.toNat + 1) [] { r with err := eOK }

/-- A sequence of calls of `read` (size and `tryFull`): return values and all the
bytes delivered. -/
def encReads (C : Cipher) (io : Nat → Option Nat) (T I : Int) :
    List (Int × Bool) → EncR → Except Fault (List Int × Bytes × EncR)
  | [], r => .ok ([], [], r)
  | (n, full) :: l, r => match encRead C io T I n full r with
    | .error f => .error f
    | .ok (ret, data, r) => match encReads C io T I l r with
      | .error f => .error f
      | .ok (rets, more, r) => .ok (ret :: rets, data ++ more, r)

/-- `finalizeReads` (WdtSocket.cpp:609-626): `true` is OK. -/
def finalizeReads (C : Cipher) (io : Nat → Option Nat) (r : EncR) : Bool × EncR :=
  (decide ((readEncryptionTag io r).1 ≠ [] ∧ (readEncryptionTag io r).1 = C.tag r.st.iv r.st.done), (readEncryptionTag io r).2)

/-! ### The exchange of settings -/

/-- `enum EncryptionType` (EncryptionUtils.h:22). -/
def ENC_AES128_CTR : Int := 1
def ENC_AES128_GCM : Int := 2

/-- `Protocol::ENCRYPTION_CMD` (Protocol.h:293). -/
def ENCRYPTION_CMD : UInt8 := 0x65

/-- `writeEncryptionSettingsOnce` (WdtSocket.cpp:99-121): the bytes written in front
of the data.  `buf` is `buf_`.  Simplified: `kEncryptionCmdLen` is given as the end
of the buffer, the code gives one more (line 114). -/
def encHello (encType : Int) (iv : Bytes) (T : Int) (buf : Bytes) : Except Fault Bytes :=
  match encodeEncryptionSettings kEncryptionCmdLen encType iv T (buf.set 0 ENCRYPTION_CMD) 1 with
  | .error f => .error f
  | .ok (_, buf, off) => .ok (buf.take off.toNat)

/-- Reading side of the socket that a receiver has (`ServerSocket`, which enables
`supportUnencryptedPeer_`, util/ServerSocket.cpp:26-27): is encryption on
(`encryptionParams_.isSet()`), the tag interval once the settings were read
(`encryptionSettingsRead_`, `readTagInterval_`), the rest. -/
structure SrvSock where
  encOn : Bool
  settings : Option Int := none
  r : EncR
deriving DecidableEq, Repr

/-- `readEncryptionSettingsOnce` (WdtSocket.cpp:34-97): state and `buf_[0]`. `junk` is
the last byte of `buf_`, which the second read does not fill. -/
def readSettingsOnce (encType : Int) (junk : UInt8) (io : Nat → Option Nat) (s : SrvSock) :
    Except Fault (SrvSock × UInt8) :=
  if s.encOn = false ∨ s.settings.isSome then .ok (s, 0)
  else
    match readInternal io 1 true s.r with
    | (1, [c], r) =>
      if c ≠ ENCRYPTION_CMD then .ok ({ s with r := { r with err := eUNEXPECTED_CMD_ERROR } }, c)
      else
        match readInternal io (kEncryptionCmdLen - 1) true r with
        | (got, bs, r) =>
          if got ≠ kEncryptionCmdLen - 1 then .ok ({ s with r := { r with err := eSOCKET_READ_ERROR } }, c)
          else match decodeEncryptionSettings (bs ++ [junk]) 0 kEncryptionCmdLen with
            | .error f => .error f
            | .ok (none, _) => .ok ({ s with r := { r with err := ePROTOCOL_ERROR } }, c)
            | .ok (some (v, iv, T), _) =>
              if v ≠ encType then .ok ({ s with r := { r with err := ePROTOCOL_ERROR } }, c)
              else if T < 0 then .ok ({ s with r := { r with err := ePROTOCOL_ERROR } }, c)
              else if T > 0 ∧ encType ≠ ENC_AES128_GCM then .ok ({ s with r := { r with err := ePROTOCOL_ERROR } }, c)
              else if iv.length ≠ kTagLen then .ok ({ s with r := { r with err := eENCRYPTION_ERROR } }, c)
              else .ok ({ s with settings := some T, r := { r with st := { r.st with iv := iv, done := [] } } }, c)
    | (_, _, r) => .ok ({ s with r := r }, 0)

/-- `readWithTimeout` (WdtSocket.cpp:310-371) of a receiver's socket. -/
def srvRead (C : Cipher) (encType : Int) (junk : UInt8) (io : Nat → Option Nat) (I n : Int) (tryFull : Bool)
    (s : SrvSock) : Except Fault (Int × Bytes × SrvSock) :=
  if n ≤ 0 then .error .check
  else if s.r.err ≠ eOK ∧ s.r.err ≠ eWDT_TIMEOUT then .ok (-1, [], s)
  else match readSettingsOnce encType junk io { s with r := { s.r with err := eOK } } with
    | .error f => .error f
    | .ok (s, c) =>
      if s.r.err = eUNEXPECTED_CMD_ERROR then
        match readInternal io (n - 1) tryFull { s.r with err := eOK } with
        | (ret, bs, r) =>
          if ret ≥ 0 then .ok (1 + ret, c :: bs, { s with encOn := false, r := r })
          else .ok (1, [c], { s with encOn := false, r := r })
      else if s.r.err ≠ eOK then .ok (-1, [], s)
      else if s.encOn = false then
        match readInternal io n tryFull s.r with
        | (ret, bs, r) => if ret ≥ 0 then .ok (ret, bs, { s with r := r }) else .ok (-1, [], { s with r := r })
      else match encRead C io (s.settings.getD 0) I n tryFull s.r with
        | .error f => .error f
        | .ok (ret, bs, r) => .ok (ret, bs, { s with r := r })

/-- A sequence of calls of `read`. -/
def srvReads (C : Cipher) (encType : Int) (junk : UInt8) (io : Nat → Option Nat) (I : Int) :
    List (Int × Bool) → SrvSock → Except Fault (List Int × Bytes × SrvSock)
  | [], s => .ok ([], [], s)
  | (n, full) :: l, s => match srvRead C encType junk io I n full s with
    | .error f => .error f
    | .ok (ret, data, s) => match srvReads C encType junk io I l s with
      | .error f => .error f
      | .ok (rets, more, s) => .ok (ret :: rets, data ++ more, s)

/-- A new connection on the same socket: `closeConnectionInternal` and `setFd`
(WdtSocket.cpp:654-684, 690-692); `encryptionParams_` keeps what it was. -/
def SrvSock.reconnect (s : SrvSock) (inp : Bytes) : SrvSock :=
  { encOn := s.encOn, settings := none, r := { st := { iv := [] }, net := { rest := inp } } }


end Wdt
