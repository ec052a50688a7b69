import Verif.Model.EncSocket
/-
Model of the life of a socket object (/repo/util/WdtSocket.cpp:14-522, 590-692, 811-818 and
/repo/util/EncryptionUtils.cpp:227-472): any number of connections one after the other, with reads,
writes and the end of the streams, when system calls and OpenSSL may fail at any point.

Simplified: only how many bytes are moved and what fails is followed, not the bytes; what they are
is in `Model/EncSocket.lean` (where nothing fails).  What happens is given by a function `E`: the
`k`-th question to the outside is answered by `E k`.  Every `WDT_CHECK` is a fault.  OpenSSL gives as
many bytes as it gets (lines 293, 410) and has block size 1 (lines 260, 380).
-/
namespace Wdt

/-- An answer of the outside. -/
structure SlEv where
  /-- bytes that a read gives; 0: end of file, negative: error -/
  n : Int := 0
  /-- the error is EAGAIN or EINTR (WdtSocket.cpp:132) -/
  again : Bool := false
  /-- a write is complete, a call of OpenSSL or of the system succeeds, the first byte is ENCRYPTION_CMD -/
  ok : Bool := true
  /-- the settings can be decoded and name the same cipher (WdtSocket.cpp:63-76); a tag can be got -/
  same : Bool := true
  /-- the tag interval in the settings -/
  tag : Int := 0
deriving DecidableEq, Repr

/-- `WdtSocket` (WdtSocket.h:226-256). `enc` and `secret`: `encryptionParams_` (type, and whether the
secret is not empty); `decOn`, `decType`, `decNum` and `encOn`, `encType`, `encNum`: `started_`, `type_`
and `numProcessed_` of the two cipher objects (EncryptionUtils.h:119-122); `k` counts the answers. -/
structure SlSock where
  fd : Int := -1
  enc : Int := 0
  secret : Bool := false
  plainPeer : Bool := false
  ivInt : Int := 0
  wTag : Int := 0
  rTag : Int := 0
  rErr : ErrCode := eOK
  wErr : ErrCode := eOK
  rSet : Bool := false
  wSet : Bool := false
  rFin : Bool := false
  wFin : Bool := false
  totR : Int := 0
  totW : Int := 0
  decOn : Bool := false
  decType : Int := 0
  decNum : Int := 0
  encOn : Bool := false
  encType : Int := 0
  encNum : Int := 0
  k : Nat := 0
deriving DecidableEq, Repr

/-- The constructor (WdtSocket.cpp:14-31): tags only if the cipher has them. -/
def slNew (enc : Int) (secret plainPeer : Bool) (ivInt tagOption : Int) : SlSock :=
  { enc := enc, secret := secret, plainPeer := plainPeer, ivInt := ivInt
    wTag := if enc = ENC_AES128_GCM then tagOption else 0 }

/-- `encryptionTypeToTagLen` (EncryptionUtils.cpp:40-42). -/
def slTagLen (t : Int) : Int := if t = ENC_AES128_GCM then kTagLen else 0

/-- `readInternal` (WdtSocket.cpp:125-142); asked for nothing, it gives nothing (lines 544, 587). -/
def slRead (E : Nat → SlEv) (n : Int) (s : SlSock) : Int × SlSock :=
  if n ≤ 0 ∨ (E s.k).n = 0 then (0, { s with k := s.k + 1, rErr := eSOCKET_READ_ERROR })
  else if (E s.k).n < 0 then
    (-1, { s with k := s.k + 1, rErr := if (E s.k).again then eWDT_TIMEOUT else eSOCKET_READ_ERROR })
  else (min (E s.k).n n, { s with k := s.k + 1, rErr := eOK })

/-- `writeInternal` (WdtSocket.cpp:144-168). -/
def slWrite (E : Nat → SlEv) (n : Int) (s : SlSock) : Int × SlSock :=
  if (E s.k).ok then (n, { s with k := s.k + 1 })
  else (-1, { s with k := s.k + 1, wErr := eSOCKET_WRITE_ERROR })

/-- `AESDecryptor::start` (EncryptionUtils.cpp:350-399). -/
def slDecStart (E : Nat → SlEv) (s : SlSock) : Except Fault (Bool × SlSock) :=
  if s.decOn then .error .check
  else .ok ((E s.k).ok, { s with k := s.k + 1, decType := s.enc, decOn := (E s.k).ok })

/-- `AESEncryptor::start` (EncryptionUtils.cpp:227-282). -/
def slEncStart (E : Nat → SlEv) (s : SlSock) : Except Fault (Bool × SlSock) :=
  if s.encOn then .error .check
  else .ok ((E s.k).ok, { s with k := s.k + 1, encType := s.enc, encOn := (E s.k).ok })

/-- `resetDecryptor` (WdtSocket.cpp:815-817). -/
def slDecReset (s : SlSock) : SlSock := { s with decOn := false, decType := 0, decNum := 0 }

/-- `resetEncryptor` (WdtSocket.cpp:811-813). -/
def slEncReset (s : SlSock) : SlSock := { s with encOn := false, encType := 0, encNum := 0 }

/-- `AESDecryptor::finish` (EncryptionUtils.cpp:426-465); `tag`: a tag of the right length is given. -/
def slDecFinish (E : Nat → SlEv) (tag : Bool) (s : SlSock) : Bool × SlSock :=
  if s.decOn then
    ((E s.k).ok && (tag || decide (slTagLen s.decType = 0)), { s with k := s.k + 1, decOn := false })
  else (true, s)

/-- `AESEncryptor::finish` (EncryptionUtils.cpp:299-333): success, and whether there is a tag. -/
def slEncFinish (E : Nat → SlEv) (s : SlSock) : Bool × Bool × SlSock :=
  if s.encOn then
    ((E s.k).ok, (E s.k).ok && (E s.k).same && decide (slTagLen s.encType ≠ 0), { s with k := s.k + 1, encOn := false })
  else (true, false, s)

/-- `readEncryptionSettingsOnce` (WdtSocket.cpp:34-97). -/
def slReadSettings (E : Nat → SlEv) (s : SlSock) : Except Fault SlSock :=
  if s.enc = 0 ∨ s.rSet then .ok s
  else if s.secret = false then .error .check
  else
    let r1 := slRead E 1 s
    if r1.1 ≠ 1 then .ok r1.2
    else if (E s.k).ok = false then .ok { r1.2 with rErr := eUNEXPECTED_CMD_ERROR }
    else
      let r2 := slRead E (kEncryptionCmdLen - 1) r1.2
      if r2.1 ≠ kEncryptionCmdLen - 1 then .ok { r2.2 with rErr := eSOCKET_READ_ERROR }
      else
        let e := E r2.2.k
        let s3 := { r2.2 with k := r2.2.k + 1, rTag := e.tag }
        if e.same = false ∨ e.tag < 0 ∨ (0 < e.tag ∧ slTagLen s.enc = 0) then .ok { s3 with rErr := ePROTOCOL_ERROR }
        else do
          let d ← slDecStart E s3
          if d.1 then .ok { d.2 with rSet := true } else .ok { d.2 with rErr := eENCRYPTION_ERROR }

/-- `writeEncryptionSettingsOnce` (WdtSocket.cpp:99-123). -/
def slWriteSettings (E : Nat → SlEv) (s : SlSock) : Except Fault SlSock :=
  if s.enc = 0 ∨ s.wSet then .ok s
  else if s.secret = false then .error .check
  else do
    let d ← slEncStart E s
    if d.1 = false then .ok { d.2 with wErr := eENCRYPTION_ERROR }
    else
      let w := slWrite E kEncryptionCmdLen d.2
      if w.1 ≠ kEncryptionCmdLen then .ok w.2 else .ok { w.2 with wSet := true }

/-- `readAndDecrypt` (WdtSocket.cpp:235-251) with `AESDecryptor::decrypt` (EncryptionUtils.cpp:401-413). -/
def slDecrypt (E : Nat → SlEv) (n : Int) (s : SlSock) : Except Fault (Int × SlSock) :=
  if n ≤ 0 ∨ s.enc = 0 then .error .check
  else
    let r := slRead E n s
    if r.1 ≤ 0 then .ok r
    else if r.2.decOn = false then .error .check
    else if (E r.2.k).ok then .ok (r.1, { r.2 with k := r.2.k + 1, decNum := r.2.decNum + r.1 })
    else .ok (-1, { r.2 with k := r.2.k + 1, rErr := eENCRYPTION_ERROR })

/-- `readEncryptionTag` (WdtSocket.cpp:201-221).  With a cipher without tags it would take the address
of the first of no bytes (line 206). -/
def slReadTag (E : Nat → SlEv) (s : SlSock) : Except Fault (Bool × SlSock) :=
  if slTagLen s.enc = 0 then .error .ub
  else
    let r := slRead E (slTagLen s.enc) s
    if r.1 ≠ slTagLen s.enc then .ok (false, { r.2 with rErr := eENCRYPTION_ERROR }) else .ok (true, r.2)

/-- `AESDecryptor::verifyTag` (EncryptionUtils.cpp:415-423). -/
def slVerify (E : Nat → SlEv) (s : SlSock) : Except Fault (Bool × SlSock) :=
  if s.decType ≠ ENC_AES128_GCM then .error .check else .ok ((E s.k).ok, { s with k := s.k + 1 })

/-- `checkAndChangeDecryptionIv` (WdtSocket.cpp:170-199). -/
def slDecIv (E : Nat → SlEv) (s : SlSock) : Except Fault (Bool × SlSock) :=
  if s.ivInt = 0 ∨ s.decNum + s.rTag ≤ s.ivInt then .ok (true, s)
  else
    let r := slRead E kTagLen s
    if r.1 ≠ kTagLen then .ok (false, r.2)
    else
      let f := slDecFinish E true r.2
      if f.1 = false then .ok (false, f.2) else slDecStart E (slDecReset f.2)

/-- The end of `readAndDecryptWithTag` (WdtSocket.cpp:298-307). -/
def slReadRest (E : Nat → SlEv) (n got : Int) (s : SlSock) : Except Fault (Int × SlSock) := do
  let r ← slDecrypt E (n - got) s
  if r.1 ≤ 0 then .ok (if 0 < got then got else r.1, r.2)
  else .ok (got + r.1, { r.2 with totR := r.2.totR + r.1 })

/-- `readAndDecryptWithTag` from the tag on (WdtSocket.cpp:278-307). -/
def slReadFromTag (E : Nat → SlEv) (n got : Int) (s : SlSock) : Except Fault (Int × SlSock) :=
  if s.totR % s.rTag ≠ 0 then .error .check
  else do
    let t ← slReadTag E s
    if t.1 = false then .ok (-1, t.2)
    else
      let v ← slVerify E t.2
      if v.1 = false then .ok (-1, { v.2 with rErr := eENCRYPTION_ERROR })
      else
        let c ← slDecIv E v.2
        if c.1 = false then .ok (-1, { c.2 with rErr := eENCRYPTION_ERROR })
        else slReadRest E n got c.2

/-- `readAndDecryptWithTag` (WdtSocket.cpp:253-308). -/
def slReadWithTag (E : Nat → SlEv) (n : Int) (s : SlSock) : Except Fault (Int × SlSock) :=
  if s.rTag ≤ 0 ∨ s.rTag < n then .error .check
  else
    let off := computeNextTagOffset s.totR s.rTag
    if off < n then
      if 0 < off then do
        let r ← slDecrypt E off s
        if r.1 ≤ 0 then .ok r
        else if r.1 < off then .ok (r.1, { r.2 with totR := r.2.totR + r.1 })
        else if r.1 ≠ off then .error .check
        else slReadFromTag E n off { r.2 with totR := r.2.totR + r.1 }
      else slReadFromTag E n 0 s
    else slReadRest E n 0 s

/-- The loop of `readWithTimeout` (WdtSocket.cpp:354-370); the fuel is more than enough. -/
def slReadLoop (E : Nat → SlEv) (n : Int) : Nat → Int → SlSock → Except Fault (Int × SlSock)
  | 0, got, s => if got < n then .error .hang else .ok (got, s)
  | fuel + 1, got, s =>
    if got < n then do
      let toRead := min (n - got) s.rTag
      let r ← slReadWithTag E toRead s
      if r.1 ≤ 0 then .ok (if 0 < got then got else r.1, r.2)
      else if r.1 < toRead then .ok (got + r.1, r.2)
      else slReadLoop E n fuel (got + r.1) r.2
    else .ok (got, s)

/-- `readWithTimeout` behind the settings (WdtSocket.cpp:336-370); `got`: the byte already there. -/
def slReadBody (E : Nat → SlEv) (n got : Int) (s : SlSock) : Except Fault (Int × SlSock) :=
  if s.enc = 0 then
    let r := slRead E (n - got) s
    if 0 ≤ r.1 then .ok (got + r.1, r.2) else .ok (if 0 < got then got else -1, r.2)
  else if got ≠ 0 then .error .check
  else if s.rTag ≤ 0 then slDecrypt E n s
  else slReadLoop E n n.toNat 0 s

/-- `readWithTimeout` and `read` (WdtSocket.cpp:310-376). -/
def slReadOp (E : Nat → SlEv) (n : Int) (s : SlSock) : Except Fault (Int × SlSock) :=
  if n ≤ 0 then .error .check
  else if s.rErr ≠ eOK ∧ s.rErr ≠ eWDT_TIMEOUT then .ok (-1, s)
  else do
    let s1 ← slReadSettings E { s with rErr := eOK }
    if s1.plainPeer ∧ s1.rErr = eUNEXPECTED_CMD_ERROR then
      slReadBody E n 1 { s1 with rErr := eOK, enc := 0, secret := false }
    else if s1.rErr ≠ eOK then .ok (-1, s1)
    else slReadBody E n 0 s1

/-- `encryptAndWrite` (WdtSocket.cpp:378-394) with `AESEncryptor::encrypt` (EncryptionUtils.cpp:284-296). -/
def slEncrypt (E : Nat → SlEv) (n : Int) (s : SlSock) : Except Fault (Int × SlSock) :=
  if n ≤ 0 ∨ s.enc = 0 ∨ s.encOn = false then .error .check
  else if (E s.k).ok = false then .ok (-1, { s with k := s.k + 1, wErr := eENCRYPTION_ERROR })
  else
    let w := slWrite E n { s with k := s.k + 1, encNum := s.encNum + n }
    if w.1 ≠ n then .ok (w.1, { w.2 with wErr := eSOCKET_WRITE_ERROR }) else .ok w

/-- `writeEncryptionTag` (WdtSocket.cpp:422-441) with the check in `cloneCtx`
(EncryptionUtils.cpp:195-203, 335-343). -/
def slWriteTag (E : Nat → SlEv) (s : SlSock) : Except Fault (Bool × SlSock) :=
  if slTagLen s.encType = 0 then .error .check
  else if (E s.k).ok = false then .ok (false, { s with k := s.k + 1, wErr := eENCRYPTION_ERROR })
  else
    let w := slWrite E (slTagLen s.encType) { s with k := s.k + 1 }
    .ok (decide (w.1 = slTagLen s.encType), w.2)

/-- `checkAndChangeEncryptionIv` (WdtSocket.cpp:396-420). -/
def slEncIv (E : Nat → SlEv) (s : SlSock) : Except Fault (Bool × SlSock) :=
  if s.ivInt = 0 ∨ s.encNum + s.wTag ≤ s.ivInt then .ok (true, s)
  else do
    let d ← slEncStart E (slEncReset s)
    if d.1 = false then .ok d
    else .ok (decide ((slWrite E kTagLen d.2).1 = kTagLen), (slWrite E kTagLen d.2).2)

/-- The end of `encryptAndWriteWithTag` (WdtSocket.cpp:473-481). -/
def slWriteRest (E : Nat → SlEv) (n done : Int) (s : SlSock) : Except Fault (Int × SlSock) := do
  let w ← slEncrypt E (n - done) s
  if w.1 ≠ n - done then .ok (-1, w.2) else .ok (n, { w.2 with totW := w.2.totW + w.1 })

/-- `encryptAndWriteWithTag` from the tag on (WdtSocket.cpp:463-481). -/
def slWriteFromTag (E : Nat → SlEv) (n done : Int) (s : SlSock) : Except Fault (Int × SlSock) :=
  if s.totW % s.wTag ≠ 0 then .error .check
  else do
    let t ← slWriteTag E s
    if t.1 = false then .ok (-1, t.2)
    else
      let c ← slEncIv E t.2
      if c.1 = false then .ok (-1, { c.2 with wErr := eENCRYPTION_ERROR }) else slWriteRest E n done c.2

/-- `encryptAndWriteWithTag` (WdtSocket.cpp:443-482). -/
def slWriteWithTag (E : Nat → SlEv) (n : Int) (s : SlSock) : Except Fault (Int × SlSock) :=
  if s.wTag ≤ 0 ∨ s.wTag < n then .error .check
  else
    let off := computeNextTagOffset s.totW s.wTag
    if off < n then
      if 0 < off then do
        let w ← slEncrypt E off s
        if w.1 ≠ off then .ok (-1, w.2)
        else slWriteFromTag E n off { w.2 with totW := w.2.totW + w.1 }
      else slWriteFromTag E n 0 s
    else slWriteRest E n 0 s

/-- The loop of `write` (WdtSocket.cpp:507-521). -/
def slWriteLoop (E : Nat → SlEv) (n : Int) : Nat → Int → SlSock → Except Fault (Int × SlSock)
  | 0, done, s => if done < n then .error .hang else .ok (done, s)
  | fuel + 1, done, s =>
    if done < n then do
      let toWrite := min (n - done) s.wTag
      let w ← slWriteWithTag E toWrite s
      if w.1 ≠ toWrite then .ok (-1, w.2) else slWriteLoop E n fuel (done + w.1) w.2
    else .ok (done, s)

/-- `write` (WdtSocket.cpp:484-522). -/
def slWriteOp (E : Nat → SlEv) (n : Int) (s : SlSock) : Except Fault (Int × SlSock) :=
  if n ≤ 0 then .error .check
  else if s.wErr ≠ eOK then .ok (-1, s)
  else do
    let s1 ← slWriteSettings E s
    if s1.wErr ≠ eOK then .ok (-1, s1)
    else if s1.enc = 0 then .ok (slWrite E n s1)
    else if s1.wTag ≤ 0 then slEncrypt E n s1
    else slWriteLoop E n n.toNat 0 s1

/-- `finalizeReads` (WdtSocket.cpp:609-626). -/
def slFinReads (E : Nat → SlEv) (tagIO : Bool) (s : SlSock) : Except Fault (ErrCode × SlSock) :=
  if slTagLen s.enc ≠ 0 ∧ tagIO then do
    let t ← slReadTag E s
    let f := slDecFinish E t.1 t.2
    .ok (if t.1 && f.1 then eOK else eENCRYPTION_ERROR, { f.2 with rFin := true })
  else
    let f := slDecFinish E false s
    .ok (if f.1 then eOK else eENCRYPTION_ERROR, { f.2 with rFin := true })

/-- `finalizeWrites` (WdtSocket.cpp:628-645). -/
def slFinWrites (E : Nat → SlEv) (tagIO : Bool) (s : SlSock) : ErrCode × SlSock :=
  let f := slEncFinish E s
  if f.2.1 ∧ tagIO then
    let w := slWrite E kTagLen f.2.2
    (if f.1 ∧ w.1 = kTagLen then eOK else eENCRYPTION_ERROR, { w.2 with wFin := true })
  else (if f.1 then eOK else eENCRYPTION_ERROR, { f.2.2 with wFin := true })

/-- `getNonRetryableErrCode` (WdtSocket.cpp:714-725). -/
def slNonRetryable (s : SlSock) : ErrCode :=
  moreInteresting
    (if s.rErr = eSOCKET_READ_ERROR ∨ s.rErr = eWDT_TIMEOUT ∨ s.rErr = eENCRYPTION_ERROR then eOK else s.rErr)
    (if s.wErr = eSOCKET_WRITE_ERROR ∨ s.wErr = eENCRYPTION_ERROR then eOK else s.wErr)

/-- What `closeConnectionInternal` does at the end (WdtSocket.cpp:669-681). -/
def slReset (s : SlSock) : SlSock :=
  slDecReset (slEncReset { s with
    fd := -1, rErr := eOK, wErr := eOK, rSet := false, wSet := false, wFin := false, rFin := false
    totR := 0, totW := 0 })

/-- `closeConnectionInternal` (WdtSocket.cpp:654-684). -/
def slClose (E : Nat → SlEv) (tagIO : Bool) (s : SlSock) : Except Fault (ErrCode × SlSock) :=
  if s.fd < 0 then .ok (eOK, s)
  else do
    let w := if s.wFin then (eOK, s) else slFinWrites E tagIO s
    let r ← (if w.2.rFin then Except.ok (eOK, w.2) else slFinReads E tagIO w.2 : Except Fault (ErrCode × SlSock))
    let c := moreInteresting (moreInteresting (slNonRetryable s) w.1) r.1
    .ok (if (E r.2.k).ok then c else moreInteresting eERROR c, slReset { r.2 with k := r.2.k + 1 })

/-- The calls of the owner of the socket.  `connect`: a connection is made or accepted, `setFd`
(WdtSocket.cpp:690-692, ClientSocket.cpp:71, ServerSocket.cpp:292). -/
inductive SlOp where
  | connect (fd : Int)
  | read (n : Int)
  | write (n : Int)
  | shutdownWrites
  | expectEndOfStream
  | close (tagIO : Bool)
deriving DecidableEq, Repr

/-- One call and what it returns; `shutdownWrites` (WdtSocket.cpp:590-599), `expectEndOfStream`
(lines 601-603). -/
def slStep (E : Nat → SlEv) (op : SlOp) (s : SlSock) : Except Fault (Int × SlSock) :=
  match op with
  | .connect fd => .ok (0, { s with fd := fd })
  | .read n => slReadOp E n s
  | .write n => slWriteOp E n s
  | .shutdownWrites =>
    let f := slFinWrites E true s
    .ok (if f.1 = eOK ∧ (E f.2.k).ok = false then eERROR else f.1, { f.2 with k := f.2.k + 1 })
  | .expectEndOfStream => do
    let f ← slFinReads E true s
    .ok (f.1, f.2)
  | .close t => do
    let c ← slClose E t s
    .ok (c.1, c.2)

/-- A sequence of calls and what they return. -/
def slRun (E : Nat → SlEv) : List SlOp → SlSock → Except Fault (List Int × SlSock)
  | [], s => .ok ([], s)
  | op :: ops, s => do
    let r ← slStep E op s
    let rest ← slRun E ops r.2
    .ok (r.1 :: rest.1, rest.2)

end Wdt
