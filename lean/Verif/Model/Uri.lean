import Verif.Model.ErrorCode
import Verif.Model.Serial
/-
Model of connection urls (/repo/WdtTransferRequest.cpp:20-511,
/repo/util/EncryptionUtils.cpp:66-178).

`std::string` is `Bytes`.  Logging is left out.
-/
namespace Wdt

/-- The bytes of a literal. -/
def lit (s : String) : Bytes := s.toUTF8.toList

/-- `toHex` (WdtTransferRequest.cpp:41-47). -/
def toHex (v : UInt8) : Except Fault UInt8 :=
  if v.toNat ≥ 16 then .error .check
  else if v ≤ 9 then .ok (48 + v)
  else .ok (97 + v - 10)

/-- `fromHex` (WdtTransferRequest.cpp:49-57); `none` is -1.  (Bytes from 128 on are
negative as `char`; both comparisons give -1.) -/
def fromHex (c : UInt8) : Option UInt8 :=
  if c < 48 ∨ (c > 57 ∧ (c < 97 ∨ c > 102)) then none
  else if c ≤ 57 then some (c - 48)
  else some (c - 97 + 10)

/-- Characters that stay as they are (WdtTransferRequest.cpp:66-68). -/
def uriPlain (c : UInt8) : Bool :=
  c == 44 || c == 58 || c == 46 || c == 95 || c == 43 || c == 45 ||
  (65 ≤ c && c ≤ 90) || (97 ≤ c && c ≤ 122) || (48 ≤ c && c ≤ 57)

/-- `escape` (WdtTransferRequest.cpp:60-77). -/
def uriEscape : Bytes → Except Fault Bytes
  | [] => .ok []
  | c :: cs => do
    let rest ← uriEscape cs
    if uriPlain c then pure (c :: rest)
    else
      let h ← toHex (c >>> 4)
      let l ← toHex (c &&& 0xf)
      pure (37 :: h :: l :: rest)

/-- `unescape` (WdtTransferRequest.cpp:80-105): what is appended to `res`, and the
result. -/
def uriUnescape : Bytes → Bytes × Bool
  | [] => ([], true)
  | c :: cs =>
    if c ≠ 37 then
      let (r, ok) := uriUnescape cs
      (c :: r, ok)
    else match cs with
      | h :: l :: rest =>
        match fromHex h, fromHex l with
        | some m, some n =>
          let (r, ok) := uriUnescape rest
          ((m <<< 4 ||| n) :: r, ok)
        | _, _ => ([], false)
      | _ => ([], false)

/-! ### Numbers -/

def natStrAux : Nat → Nat → Bytes
  | 0, _ => []
  | fuel + 1, n => (if n / 10 = 0 then [] else natStrAux fuel (n / 10)) ++ [UInt8.ofNat (48 + n % 10)]

/-- `folly::to<string>` for an integer (at most 64 bits, so at most 20 digits). -/
def intStr (i : Int) : Bytes := if i < 0 then 45 :: natStrAux 20 i.natAbs else natStrAux 20 i.natAbs

def isDigit (c : UInt8) : Bool := 48 ≤ c && c ≤ 57

/-- Value of a string of digits. -/
def digitsVal (s : Bytes) : Nat := s.foldl (fun a c => a * 10 + (c.toNat - 48)) 0

/-- `isspace`. -/
def isWs (c : UInt8) : Bool := c == 32 || (9 ≤ c && c ≤ 13)

/-- Sign of a number for `folly::to`. -/
def intSign : Bytes → Bool × Bytes
  | [] => (false, [])
  | c :: t => if c = 45 then (true, t) else if c = 43 then (false, t) else (false, c :: t)

/-- `folly::to<int32_t>` / `<int64_t>` for a string: white space, a sign, digits, white
space; `none` is an exception. -/
def strInt (lo hi : Int) (s : Bytes) : Option Int :=
  let (neg, d) := intSign (s.dropWhile isWs)
  let digits := d.takeWhile isDigit
  if digits = [] ∨ ¬(d.dropWhile isDigit).all isWs then none
  else
    let v : Int := if neg then -(digitsVal digits) else digitsVal digits
    if lo ≤ v ∧ v ≤ hi then some v else none

def strI32 : Bytes → Option Int := strInt (-2147483648) 2147483647
def strI64 : Bytes → Option Int := strInt (-9223372036854775808) 9223372036854775807

/-- `folly::to<bool>`.  Simplified: only `0` and `1` (folly also knows `true`, `yes`
and so on). -/
def strBool (s : Bytes) : Option Bool := if s = [49] then some true else if s = [48] then some false else none

/-! ### Url -/

/-- Order of `std::string`. -/
def bytesLt : Bytes → Bytes → Bool
  | _, [] => false
  | [], _ :: _ => true
  | x :: xs, y :: ys => x < y || (x == y && bytesLt xs ys)

/-- `std::map<string, string>` (`queryParams_`, WdtTransferRequest.h:129): entries in
order of the key. -/
abbrev Params := List (Bytes × Bytes)

/-- `queryParams_[key] = value`. -/
def Params.set (k v : Bytes) : Params → Params
  | [] => [(k, v)]
  | (k', v') :: t =>
    if k = k' then (k, v) :: t
    else if bytesLt k k' then (k, v) :: (k', v') :: t
    else (k', v') :: Params.set k v t

/-- `getQueryParam` (WdtTransferRequest.cpp:240-247). -/
def Params.get (k : Bytes) : Params → Bytes
  | [] => []
  | (k', v) :: t => if k = k' then v else Params.get k t

/-- `WdtUri` (WdtTransferRequest.h:66-142). -/
structure Uri where
  hostName : Bytes := []
  port : Int := -1
  params : Params := []
  errorCode : ErrCode := eOK
deriving DecidableEq, Repr

def WDT_URL_PREFIX : Bytes := lit "wdt://"

/-- Loop over the parameters in `generateUrl` (WdtTransferRequest.cpp:119-126). -/
def genParams : UInt8 → Params → Except Fault Bytes
  | _, [] => .ok []
  | pre, (k, v) :: t =>
    if v = [] then genParams pre t
    else do
      let e ← uriEscape v
      let rest ← genParams 38 t
      pure (pre :: (k ++ 61 :: e) ++ rest)

/-- `generateUrl` (WdtTransferRequest.cpp:107-128). -/
def generateUrl (u : Uri) : Except Fault Bytes := do
  let host := if 58 ∈ u.hostName then 91 :: u.hostName ++ [93] else u.hostName
  let port := if u.port > 0 then 58 :: intStr u.port else []
  let params ← genParams 63 u.params
  pure (WDT_URL_PREFIX ++ host ++ port ++ params)

/-- `StringPiece::split_step`: the part before the first delimiter, and what follows
the delimiter. -/
def splitStep (d : UInt8) (s : Bytes) : Bytes × Bytes :=
  (s.takeWhile (· != d), (s.dropWhile (· != d)).drop 1)

/-- Loop over the parameters in `process` (WdtTransferRequest.cpp:207-228). -/
def procParams : Nat → Bytes → Params → ErrCode → Params × ErrCode
  | 0, _, m, st => (m, st)
  | fuel + 1, s, m, st =>
    if s = [] then (m, st)
    else
      let (kv, rest) := splitStep 38 s
      let (kv, rest) := if kv = [] then (rest, []) else (kv, rest)
      let (key, value) := splitStep 61 kv
      if key = [] then (m, eURI_PARSE_ERROR)
      else
        let (v, ok) := uriUnescape value
        procParams fuel rest (m.set key v) (if ok then st else eURI_PARSE_ERROR)

/-- `string::assign(const char*, 0, n)`: the argument is taken for a string that ends
at the first zero byte. -/
def cAssign (s : Bytes) (n : Nat) : Bytes := (s.takeWhile (· != 0)).take n

/-- The part of `process` after the host name (WdtTransferRequest.cpp:171-229). -/
def procRest (u : Uri) (s : Bytes) : Uri :=
  let st := if u.hostName = [] then eURI_PARSE_ERROR else eOK
  if s = [] then { u with errorCode := st }
  else
    let (u, s, st) :=
      if s.head? = some 58 then
        let s := s.drop 1
        let i := (s.takeWhile (· != 63)).length
        match strI32 (cAssign s i) with
        | some p => ({ u with port := p }, s.drop i, st)
        | none => (u, s.drop i, eURI_PARSE_ERROR)
      else (u, s, st)
    if s = [] then { u with errorCode := st }
    else if s.head? ≠ some 63 then { u with errorCode := eURI_PARSE_ERROR }
    else
      let (m, st) := procParams (s.length + 1) (s.drop 1) u.params st
      { u with params := m, errorCode := st }

/-- `process` (WdtTransferRequest.cpp:130-230) of a fresh object, and the
constructor (lines 20-22). -/
def processUrl (url : Bytes) : Uri :=
  if url.length < WDT_URL_PREFIX.length then { errorCode := eURI_PARSE_ERROR }
  else if url.take WDT_URL_PREFIX.length ≠ WDT_URL_PREFIX then { errorCode := eURI_PARSE_ERROR }
  else
    let s := url.drop WDT_URL_PREFIX.length
    if s = [] then { errorCode := eURI_PARSE_ERROR }
    else if s.head? = some 91 then
      let s := s.drop 1
      if 93 ∈ s then
        let i := (s.takeWhile (· != 93)).length
        procRest { hostName := cAssign s i } (s.drop (i + 1))
      else { errorCode := eURI_PARSE_ERROR }
    else
      let i := (s.takeWhile fun c => c != 58 && c != 63).length
      procRest { hostName := cAssign s i } (s.drop i)

/-! ### Encryption parameters -/

/-- `EncryptionParams` (EncryptionUtils.h:41-96). -/
structure EncParams where
  type : Int := 0
  data : Bytes := []
deriving DecidableEq, Repr

/-- Hex digits of the key (EncryptionUtils.cpp:100-103). -/
def hexStr : Bytes → Except Fault Bytes
  | [] => .ok []
  | c :: cs => do
    let h ← toHex (c >>> 4)
    let l ← toHex (c &&& 0xf)
    let rest ← hexStr cs
    pure (h :: l :: rest)

/-- `getUrlSafeString` (EncryptionUtils.cpp:94-105). -/
def EncParams.urlSafe (e : EncParams) : Except Fault Bytes := do
  let t ← toHex (UInt8.ofNat e.type.toNat)
  let d ← hexStr e.data
  pure (t :: 58 :: d)

/-- `state` of `unserialize` (EncryptionUtils.cpp:121-126); with the digits before. -/
inductive UnserSt where
  | inType | firstHex | leftHex
  | rightHex (byte : UInt8)
deriving DecidableEq, Repr

/-- Loop of `unserialize` (EncryptionUtils.cpp:129-163): state, type and data at the
end, state `none` for a return of `ERROR` inside the loop.  Shifting a digit out of an
`int` is undefined behaviour (line 148). -/
def unserLoop : Bytes → UnserSt → Int → Bytes → Except Fault (Option UnserSt × Int × Bytes)
  | [], st, t, d => .ok (some st, t, d)
  | c :: cs, .inType, t, d =>
    if c = 58 then if t = 0 then .ok (none, t, d) else unserLoop cs .firstHex t d
    else match fromHex c with
      | none => .ok (none, t, d)
      | some v => if t * 16 + v.toNat > 2147483647 then .error .ub else unserLoop cs .inType (t * 16 + v.toNat) d
  | c :: cs, .rightHex b, t, d => match fromHex c with
    | none => .ok (none, t, d)
    | some v => unserLoop cs .leftHex t (d ++ [b ||| v])
  | c :: cs, .firstHex, t, d => match fromHex c with
    | none => .ok (none, t, d)
    | some v => unserLoop cs (.rightHex (v <<< 4)) t d
  | c :: cs, .leftHex, t, d => match fromHex c with
    | none => .ok (none, t, d)
    | some v => unserLoop cs (.rightHex (v <<< 4)) t d

/-- `unserialize` (EncryptionUtils.cpp:117-178): `out` and the result. -/
def unserialize (s : Bytes) : Except Fault (EncParams × ErrCode) :=
  match unserLoop s .inType 0 [] with
  | .error f => .error f
  | .ok (st, t, d) =>
    if st ≠ some .leftHex then .ok ({ type := 0, data := d }, eERROR)
    else if t ≤ 0 ∨ t ≥ 3 then .ok ({ type := 0, data := d }, eERROR)
    else .ok ({ type := t, data := d }, eOK)

/-! ### Request -/

/-- `WdtTransferRequest` (WdtTransferRequest.h:149-270), the fields that matter for
urls. -/
structure TransferReq where
  transferId : Bytes := []
  enc : EncParams := {}
  protocolVersion : Int
  ports : List Int := []
  hostName : Bytes := []
  destIdentifier : Bytes := []
  wdtNamespace : Bytes := []
  directory : Bytes := []
  dr : Bool := false
  tls : Bool := false
  ivChange : Int := 0
  errorCode : ErrCode := eOK
deriving DecidableEq, Repr

def boolStr (b : Bool) : Bytes := if b then [49] else [48]

/-- `getSerializedPortsList` (WdtTransferRequest.cpp:488-498). -/
def portsStr : List Int → Bytes
  | [] => []
  | [p] => intStr p
  | p :: ps => intStr p ++ 44 :: portsStr ps

/-- `hasHoles` (WdtTransferRequest.cpp:471-479); `prevPort + 1` can overflow. -/
def portsHoles : List Int → Except Fault Bool
  | p :: q :: ps =>
    if p + 1 > 2147483647 then .error .ub
    else if q ≠ p + 1 then .ok true
    else portsHoles (q :: ps)
  | _ => .ok false

/-- `serializePorts` (WdtTransferRequest.cpp:465-486). -/
def serializePorts (ports : List Int) (u : Uri) : Except Fault Uri :=
  match ports with
  | [] => .ok u
  | p :: _ => do
    if ← portsHoles ports then pure { u with params := u.params.set (lit "ports") (portsStr ports) }
    else pure { u with port := p, params := u.params.set (lit "num_ports") (intStr ports.length) }

/-- The parameters that do not need a case distinction later
(WdtTransferRequest.cpp:440-450). -/
def reqBaseParams (r : TransferReq) : Params :=
  let m : Params := []
  let m := Params.set (lit "id") r.transferId m
  let m := Params.set (lit "ns") r.wdtNamespace m
  let m := Params.set (lit "dstid") r.destIdentifier m
  let m := Params.set (lit "recpv") (intStr r.protocolVersion) m
  let m := Params.set (lit "iv_change_int") (intStr r.ivChange) m
  if r.dr then Params.set (lit "dr") (boolStr r.dr) m else m

/-- `errorCodeToStr` is only used in the message returned instead of a url; here that
message is `none`.  `generateUrlInternal(false, false)`, that is
`genWdtUrlWithSecret` (WdtTransferRequest.cpp:423-463). -/
def genUrlWithSecret (r : TransferReq) : Except Fault (Option Bytes) :=
  if r.errorCode ≠ eOK then .ok none
  else do
    let u : Uri := { hostName := r.hostName, params := reqBaseParams r }
    let u ← serializePorts r.ports u
    let m ← if r.enc.type ≠ 0 then do
        let s ← r.enc.urlSafe
        pure (u.params.set (lit "Enc") s)
      else pure u.params
    let m := m.set (lit "tls") (boolStr r.tls)
    let url ← generateUrl { u with params := m }
    pure (some url)

/-- `genPortsVector` (WdtTransferRequest.cpp:266-273); the sum can overflow. -/
def genPortsVector (start num : Int) : Except Fault (List Int) :=
  if num > 0 ∧ start + num - 1 > 2147483647 then .error .ub
  else .ok ((List.range num.toNat).map fun (i : Nat) => start + (i : Int))

/-- Loop over the port list (WdtTransferRequest.cpp:369-383). -/
def parsePorts : Nat → Bytes → List Int → ErrCode → List Int × ErrCode
  | 0, _, acc, ec => (acc, ec)
  | fuel + 1, s, acc, ec =>
    let (p, rest) := splitStep 44 s
    let (acc, ec) :=
      if p = [] then (acc, ec)
      else match strI32 p with
        | some v => (acc ++ [v], ec)
        | none => (acc, eURI_PARSE_ERROR)
    if rest = [] then (acc, ec) else parsePorts fuel rest acc ec

/-- Value of an optional parameter: an empty one keeps the default, one that cannot
be parsed sets the error. -/
def optParam {α} (parse : Bytes → Option α) (s : Bytes) (dflt : α) (ec : ErrCode) : α × ErrCode :=
  if s = [] then (dflt, ec)
  else match parse s with
    | some v => (v, ec)
    | none => (dflt, eURI_PARSE_ERROR)

/-- The encryption parameter (WdtTransferRequest.cpp:309-317). -/
def reqEnc (encStr : Bytes) (ec : ErrCode) : Except Fault (EncParams × ErrCode) :=
  if encStr = [] then .ok ({}, ec)
  else match unserialize encStr with
    | .error f => .error f
    | .ok (e, code) => .ok (e, if code = eOK then ec else moreInteresting code ec)

/-- First port, used when there is no list (WdtTransferRequest.cpp:389-404). -/
def reqStartPort (u : Uri) (ec : ErrCode) : Int × ErrCode :=
  if u.port ≤ 0 then
    if u.params.get (lit "start_port") = [] then (u.port, eINVALID_REQUEST)
    else optParam strI32 (u.params.get (lit "start_port")) u.port ec
  else (u.port, ec)

/-- Number of ports (WdtTransferRequest.cpp:405-416). -/
def reqNumPorts (u : Uri) (ec : ErrCode) : Int × ErrCode :=
  if u.params.get (lit "num_ports") = [] then (0, eINVALID_REQUEST)
  else optParam strI32 (u.params.get (lit "num_ports")) 0 ec

/-- The ports (WdtTransferRequest.cpp:368-419). -/
def reqPorts (u : Uri) (ec : ErrCode) : Except Fault (List Int × ErrCode) :=
  let list := u.params.get (lit "ports")
  let (ports, ec) := parsePorts (list.length + 1) list [] ec
  if ports ≠ [] then .ok (ports, ec)
  else
    let (start, ec) := reqStartPort u ec
    let (num, ec) := reqNumPorts u ec
    if ec = eOK then
      match genPortsVector start num with
      | .error f => .error f
      | .ok v => .ok (v, ec)
    else .ok ([], ec)

/-- The constructor from a url (WdtTransferRequest.cpp:301-421); `pv` is
`Protocol::protocol_version`, the default for the version. -/
def parseReq (pv : Int) (url : Bytes) : Except Fault TransferReq := do
  let u := processUrl url
  let get := fun k => u.params.get (lit k)
  let (enc, ec) ← reqEnc (get "Enc") u.errorCode
  let (tls, ec) := optParam strBool (get "tls") false ec
  let (dr, ec) := optParam strBool (get "dr") false ec
  let (ver, ec) := optParam strI64 (get "recpv") pv ec
  let (iv, ec) := optParam strI64 (get "iv_change_int") 0 ec
  let (ports, ec) ← reqPorts u ec
  pure { transferId := get "id", enc := enc, protocolVersion := ver, ports := ports, hostName := u.hostName,
         destIdentifier := get "dstid", wdtNamespace := get "ns", directory := get "dir", dr := dr, tls := tls,
         ivChange := iv, errorCode := ec }

end Wdt
