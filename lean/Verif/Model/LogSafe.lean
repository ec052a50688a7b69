import Verif.Model.Uri
/-
Model of what the reading and writing of connection urls puts into the log
(/repo/WdtTransferRequest.cpp:79-105, 130-248, 301-463; /repo/util/EncryptionUtils.cpp:66-192;
/repo/wdtCmdLine.cpp:283-290, 328-333).

The functions here are those of `Model/Uri.lean` once more, with the messages they write.
`Lemmas/LogSafe.lean` shows that their results are the same.

Left out: time, thread and source line in front of each message; the messages of destructors
(`erase`, EncryptionUtils.cpp:79-88: address and type of the object) other than the one in
`unserialize`.
-/
namespace Wdt

/-- What the text of messages depends on besides the arguments. -/
structure MsgEnv where
  /-- `std::hash<string>` -/
  hash : Bytes → UInt64
  /-- a printed pointer -/
  addr : Bytes
  /-- `errorCodeToStr` (ErrorCodes.cpp:29-43) -/
  errStr : ErrCode → Bytes
  /-- `what()` of the exception that `folly::to` throws for a string -/
  what : Bytes → Bytes

/-- One message.  `verbose` is 0 for `WLOG` (always written), and 1 for `WVLOG(1)`. -/
structure LogLine where
  verbose : Nat
  text : Bytes
deriving DecidableEq, Repr

/-- `WLOG`. -/
def wlog (t : Bytes) : LogLine := ⟨0, t⟩

/-- `WVLOG(1)`. -/
def wvlog (t : Bytes) : LogLine := ⟨1, t⟩

/-- `unescape` (WdtTransferRequest.cpp:80-105): what is appended to `res`, the result, and messages;
`whole` is `escapedValue`. -/
def uriUnescapeL (whole : Bytes) : Bytes → Bytes × Bool × List LogLine
  | [] => ([], true, [])
  | c :: cs =>
    if c ≠ 37 then
      let (r, ok, l) := uriUnescapeL whole cs
      (c :: r, ok, l)
    else match cs with
      | h :: l :: rest =>
        match fromHex h, fromHex l with
        | some m, some n =>
          let (r, ok, l) := uriUnescapeL whole rest
          ((m <<< 4 ||| n) :: r, ok, l)
        | _, _ => ([], false,
            [wlog (lit "Can't decode \"" ++ whole ++ lit "\" % sequence with non 0-9a-f characters")])
      | _ => ([], false, [wlog (lit "Can't decode \"" ++ whole ++ lit "\" end with unfinished % sequence")])

/-- Loop over the parameters in `process` (WdtTransferRequest.cpp:207-228). -/
def procParamsL (url : Bytes) : Nat → Bytes → Params → ErrCode → Params × ErrCode × List LogLine
  | 0, _, m, st => (m, st, [])
  | fuel + 1, s, m, st =>
    if s = [] then (m, st, [])
    else
      let (kv, rest) := splitStep 38 s
      let (kv, rest) := if kv = [] then (rest, []) else (kv, rest)
      let (key, value) := splitStep 61 kv
      if key = [] then (m, eURI_PARSE_ERROR, [wlog (lit "Errors parsing params, url = " ++ url)])
      else
        let (v, ok, l) := uriUnescapeL value value
        let (m, st, l') := procParamsL url fuel rest (m.set key v) (if ok then st else eURI_PARSE_ERROR)
        (m, st, l ++ l')

/-- The part of `process` after the host name (WdtTransferRequest.cpp:171-229). -/
def procRestL (url : Bytes) (u : Uri) (s : Bytes) : Uri × List LogLine :=
  let (st, l) := if u.hostName = [] then (eURI_PARSE_ERROR, [wlog (lit "Empty hostname " ++ url)]) else (eOK, [])
  if s = [] then ({ u with errorCode := st }, l)
  else
    let (u, s, st, l) :=
      if s.head? = some 58 then
        let s := s.drop 1
        let i := (s.takeWhile (· != 63)).length
        match strI32 (cAssign s i) with
        | some p => ({ u with port := p }, s.drop i, st, l)
        | none => (u, s.drop i, eURI_PARSE_ERROR, l ++ [wlog (lit "Invalid port, can't be parsed " ++ url)])
      else (u, s, st, l)
    if s = [] then ({ u with errorCode := st }, l)
    else if s.head? ≠ some 63 then
      ({ u with errorCode := eURI_PARSE_ERROR },
        l ++ [wlog (lit "Unexpected delimiter for params " ++ s.take 1)])
    else
      let (m, st, l') := procParamsL url (s.length + 1) (s.drop 1) u.params st
      ({ u with params := m, errorCode := st }, l ++ l')

/-- `process` (WdtTransferRequest.cpp:130-230) of a fresh object, and the constructor (lines 20-22). -/
def processUrlL (url : Bytes) : Uri × List LogLine :=
  if url.length < WDT_URL_PREFIX.length then
    ({ errorCode := eURI_PARSE_ERROR }, [wlog (lit "Url doesn't specify wdt protocol")])
  else if url.take WDT_URL_PREFIX.length ≠ WDT_URL_PREFIX then
    ({ errorCode := eURI_PARSE_ERROR }, [wlog (lit "Url does not specify wdt protocol " ++ url)])
  else
    let s := url.drop WDT_URL_PREFIX.length
    if s = [] then ({ errorCode := eURI_PARSE_ERROR }, [wlog (lit "Empty host name " ++ url)])
    else if s.head? = some 91 then
      let s := s.drop 1
      if 93 ∈ s then
        let i := (s.takeWhile (· != 93)).length
        procRestL url { hostName := cAssign s i } (s.drop (i + 1))
      else ({ errorCode := eURI_PARSE_ERROR }, [wlog (lit "Didn't find ] for ipv6 address " ++ url)])
    else
      let i := (s.takeWhile fun c => c != 58 && c != 63).length
      procRestL url { hostName := cAssign s i } (s.drop i)

/-- `getQueryParam` (WdtTransferRequest.cpp:240-247). -/
def Params.getL (k : Bytes) : Params → Bytes × List LogLine
  | [] => ([], [wvlog (lit "Couldn't find query param " ++ k)])
  | (k', v) :: t => if k = k' then (v, []) else Params.getL k t

/-! ### Encryption parameters -/

/-- `getLogSafeString` (EncryptionUtils.cpp:107-115). -/
def EncParams.logSafe (E : MsgEnv) (e : EncParams) : Except Fault Bytes := do
  let t ← toHex (UInt8.ofNat e.type.toNat)
  pure (t :: 58 :: (lit "..." ++ intStr (E.hash e.data).toNat ++ lit "..."))

/-- The constructor with data (EncryptionUtils.cpp:66-73): the object, and messages. -/
def newEncParams (E : MsgEnv) (type : Int) (data : Bytes) : Except Fault (EncParams × List LogLine) := do
  let s ← EncParams.logSafe E ⟨type, data⟩
  let l := wlog (lit "New encryption params " ++ E.addr ++ lit " " ++ s)
  if type ≥ 3 then
    pure ({}, [l, wlog (lit "Unsupported type " ++ intStr type),
      wvlog (lit " Erasing EncryptionParams " ++ E.addr ++ lit " " ++ intStr type)])
  else pure (⟨type, data⟩, [l])

/-- `(int)c` for a `char`. -/
def charInt (c : UInt8) : Int := if c.toNat < 128 then c.toNat else (c.toNat : Int) - 256

/-- Loop of `unserialize` (EncryptionUtils.cpp:129-163), with messages; `input` is the whole argument. -/
def unserLoopL (input : Bytes) : Bytes → UnserSt → Int → Bytes →
    Except Fault (Option UnserSt × Int × Bytes × List LogLine)
  | [], st, t, d => .ok (some st, t, d, [])
  | c :: cs, .inType, t, d =>
    if c = 58 then
      if t = 0 then .ok (none, t, d, [wlog (lit "Enc type still none when ':' reached " ++ input)])
      else unserLoopL input cs .firstHex t d
    else match fromHex c with
      | none => .ok (none, t, d, [wlog (lit "Not hex found " ++ intStr (charInt c) ++ lit " in " ++ input)])
      | some v =>
        if t * 16 + v.toNat > 2147483647 then .error .ub else unserLoopL input cs .inType (t * 16 + v.toNat) d
  | c :: cs, .rightHex b, t, d => match fromHex c with
    | none => .ok (none, t, d, [wlog (lit "Not hex found " ++ intStr (charInt c) ++ lit " in " ++ input)])
    | some v => unserLoopL input cs .leftHex t (d ++ [b ||| v])
  | c :: cs, .firstHex, t, d => match fromHex c with
    | none => .ok (none, t, d, [wlog (lit "Not hex found " ++ intStr (charInt c) ++ lit " in " ++ input)])
    | some v => unserLoopL input cs (.rightHex (v <<< 4)) t d
  | c :: cs, .leftHex, t, d => match fromHex c with
    | none => .ok (none, t, d, [wlog (lit "Not hex found " ++ intStr (charInt c) ++ lit " in " ++ input)])
    | some v => unserLoopL input cs (.rightHex (v <<< 4)) t d

/-- `unserialize` (EncryptionUtils.cpp:117-178) into a fresh object: `out`, the result, and messages. -/
def unserializeL (E : MsgEnv) (s : Bytes) : Except Fault (EncParams × ErrCode × List LogLine) :=
  let l0 := wvlog (lit " Erasing EncryptionParams " ++ E.addr ++ lit " 0")
  match unserLoopL s s .inType 0 [] with
  | .error f => .error f
  | .ok (none, _, d, l) => .ok ({ type := 0, data := d }, eERROR, l0 :: l)
  | .ok (some .inType, _, d, _) =>
    .ok ({ type := 0, data := d }, eERROR, [l0, wlog (lit "Missing ':' in encryption data " ++ s)])
  | .ok (some st, t, d, _) =>
    if st ≠ .leftHex then
      .ok ({ type := 0, data := d }, eERROR,
        [l0, wlog (lit "Odd number of hex in encryption data " ++ s ++ lit " decoded up to: " ++ d)])
    else if t ≤ 0 ∨ t ≥ 3 then
      .ok ({ type := 0, data := d }, eERROR, [l0, wlog (lit "Encryption type out of range " ++ intStr t)])
    else do
      let h ← EncParams.logSafe E ⟨t, d⟩
      pure ({ type := t, data := d }, eOK, [l0, wvlog (lit "Deserialized Encryption Params " ++ h)])

/-! ### Request -/

/-- The encryption parameter (WdtTransferRequest.cpp:309-317). -/
def reqEncL (E : MsgEnv) (encStr : Bytes) (ec : ErrCode) : Except Fault (EncParams × ErrCode × List LogLine) :=
  if encStr = [] then .ok ({}, ec, [])
  else match unserializeL E encStr with
    | .error f => .error f
    | .ok (e, code, l) =>
      if code = eOK then .ok (e, ec, l)
      else .ok (e, moreInteresting code ec,
        l ++ [wlog (lit "Unable to parse encryption data from \"" ++ encStr ++ lit "\" " ++ E.errStr code)])

/-- An optional parameter; `pre` begins the message, and `we` is what ends it.  `miss` is written if the
parameter is empty. -/
def optParamL {α} (parse : Bytes → Option α) (s : Bytes) (dflt : α) (ec : ErrCode) (miss : List LogLine)
    (pre we : Bytes) : α × ErrCode × List LogLine :=
  if s = [] then (dflt, ec, miss)
  else match parse s with
    | some v => (v, ec, [])
    | none => (dflt, eURI_PARSE_ERROR, [wlog (pre ++ s ++ we)])

/-- Loop over the port list (WdtTransferRequest.cpp:369-383). -/
def parsePortsL : Nat → Bytes → List Int → ErrCode → List Int × ErrCode × List LogLine
  | 0, _, acc, ec => (acc, ec, [])
  | fuel + 1, s, acc, ec =>
    let (p, rest) := splitStep 44 s
    let (acc, ec, l) :=
      if p = [] then (acc, ec, [])
      else match strI32 p with
        | some v => (acc ++ [v], ec, [])
        | none => (acc, eURI_PARSE_ERROR, [wlog (lit "Couldn't convert " ++ p ++ lit " to valid port number")])
    if rest = [] then (acc, ec, l)
    else
      let (acc, ec, l') := parsePortsL fuel rest acc ec
      (acc, ec, l ++ l')

/-- The ports (WdtTransferRequest.cpp:368-419). -/
def reqPortsL (u : Uri) (ec : ErrCode) : Except Fault (List Int × ErrCode × List LogLine) :=
  let (list, l1) := u.params.getL (lit "ports")
  let (ports, ec, l2) := parsePortsL (list.length + 1) list [] ec
  if ports ≠ [] then .ok (ports, ec, l1 ++ l2)
  else
    let (sp, l3) := u.params.getL (lit "start_port")
    let (np, l4) := u.params.getL (lit "num_ports")
    let (start, ec, l5) :=
      if u.port ≤ 0 then
        if sp = [] then (u.port, eINVALID_REQUEST, [wlog (lit "URI should have port or start_port")])
        else optParamL strI32 sp u.port ec [] (lit "Couldn't convert start port ") []
      else (u.port, ec, [])
    let (num, ec, l6) :=
      if np = [] then ((0 : Int), eINVALID_REQUEST, [wlog (lit "URI should have num_ports")])
      else optParamL strI32 np 0 ec [] (lit "Couldn't convert num ports ") []
    let l := l1 ++ l2 ++ l3 ++ l4 ++ l5 ++ l6
    if ec = eOK then
      match genPortsVector start num with
      | .error f => .error f
      | .ok v => .ok (v, ec, l)
    else .ok ([], ec, l)

/-- The constructor from a url (WdtTransferRequest.cpp:301-421).  Simplified: in the error message for the
version the parameter is read once more (line 348), with no effect. -/
def parseReqL (E : MsgEnv) (pv : Int) (url : Bytes) : Except Fault (TransferReq × List LogLine) := do
  let (u, l0) := processUrlL url
  let (id, l1) := u.params.getL (lit "id")
  let (ns, l2) := u.params.getL (lit "ns")
  let (dstid, l3) := u.params.getL (lit "dstid")
  let (dir, l4) := u.params.getL (lit "dir")
  let (es, l5) := u.params.getL (lit "Enc")
  let (enc, ec, l6) ← reqEncL E es u.errorCode
  let (ts, l7) := u.params.getL (lit "tls")
  let (tls, ec, l8) := optParamL strBool ts false ec [] (lit "Error parsing tls ") (lit " " ++ E.what ts)
  let (ds, l9) := u.params.getL (lit "dr")
  let (dr, ec, l10) := optParamL strBool ds false ec [] (lit "Error parsing download resume ") (lit " " ++ E.what ds)
  let (rs, l11) := u.params.getL (lit "recpv")
  let (ver, ec, l12) := optParamL strI64 rs pv ec [wlog (lit "recpv not specified in URI")]
    (lit "Error parsing protocol version ") (lit " " ++ E.what rs)
  let (is, l13) := u.params.getL (lit "iv_change_int")
  let (iv, ec, l14) := optParamL strI64 is 0 ec [wlog (lit "iv_change_int not specified in URI")]
    (lit "Error parsing iv change interval ") (lit " " ++ E.what is)
  let (ports, ec, l15) ← reqPortsL u ec
  pure ({ transferId := id, enc := enc, protocolVersion := ver, ports := ports, hostName := u.hostName,
          destIdentifier := dstid, wdtNamespace := ns, directory := dir, dr := dr, tls := tls,
          ivChange := iv, errorCode := ec },
        l0 ++ l1 ++ l2 ++ l3 ++ l4 ++ l5 ++ l6 ++ l7 ++ l8 ++ l9 ++ l10 ++ l11 ++ l12 ++ l13 ++ l14 ++ l15)

/-- `generateUrlInternal` (WdtTransferRequest.cpp:431-463): the string, and messages. -/
def genUrlL (E : MsgEnv) (genFull forLogging : Bool) (r : TransferReq) : Except Fault (Bytes × List LogLine) :=
  if r.errorCode ≠ eOK then
    .ok (E.errStr r.errorCode, [wlog (lit "Transfer request has " ++ E.errStr r.errorCode)])
  else do
    let u : Uri := { hostName := r.hostName, params := reqBaseParams r }
    let u ← serializePorts r.ports u
    let m := if genFull then u.params.set (lit "dir") r.directory else u.params
    let (m, l) ← if r.enc.type ≠ 0 then do
        let h ← r.enc.logSafe E
        let s ← if forLogging then pure h else r.enc.urlSafe
        pure (m.set (lit "Enc") s, [wvlog (lit "Encryption data is set " ++ h)])
      else pure (m, [])
    let m := m.set (lit "tls") (boolStr r.tls)
    let url ← generateUrl { u with params := m }
    pure (url, l)

/-- `genWdtUrlWithSecret` (WdtTransferRequest.cpp:423-425). -/
def urlWithSecretL (E : MsgEnv) (r : TransferReq) := genUrlL E false false r

/-- `getLogSafeString` (WdtTransferRequest.cpp:427-429). -/
def reqLogSafe (E : MsgEnv) (r : TransferReq) := genUrlL E true true r

/-! ### The command line program -/

/-- The program takes a url (wdtCmdLine.cpp:283-290): the request, or `none` for the end with an error, and
messages. -/
def cmdTakeUrl (E : MsgEnv) (pv : Int) (dir url : Bytes) : Except Fault (Option TransferReq × List LogLine) := do
  let (r, l) ← parseReqL E pv url
  if r.errorCode ≠ eOK then
    pure (none, l ++ [wlog (lit "Invalid url \"" ++ url ++ lit "\" : " ++ E.errStr r.errorCode)])
  else
    let r := { r with directory := dir }
    let (s, l') ← reqLogSafe E r
    pure (some r, l ++ l' ++ [wlog (lit "Parsed url as " ++ s)])

/-- A receiver makes a key (`generateEncryptionParams`, EncryptionUtils.cpp:181-193, called in
Receiver.cpp:167-172; `key` is what `RAND_bytes` gave) and the program tells the url
(wdtCmdLine.cpp:328-333).  `r` is the request that the rest of `init` leads to.  Result: what is written to
the standard output, and messages. -/
def cmdTellUrl (E : MsgEnv) (r : TransferReq) (type : Int) (key : Bytes) :
    Except Fault (Bytes × List LogLine) := do
  let (e, l) ← newEncParams E type key
  let r := { r with enc := e }
  let (s, l1) ← reqLogSafe E r
  let (o, l2) ← urlWithSecretL E r
  pure (o, l ++ l1 ++ [wlog (lit "Starting receiver with connection url " ++ s)] ++ l2)

end Wdt
