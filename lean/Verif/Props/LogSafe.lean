import Verif.Lemmas.LogSafe
/-
C103: the key of an encrypted transfer does not get into the log.

The receiver that makes a key tells it on the standard output, in a url; the sender is given that url.  Both write
messages on the way (`LogLine`, verbose ones included).  `E.hash` is `std::hash<string>`; statements are for every such
function, so that for a constant one they say that nothing at all of the key is in the messages.
-/
namespace Wdt

/-- A request that can be told, with a key. -/
theorem ReqOK.withKey {r : TransferReq} (hr : ReqOK r) {ty : Int} (hty : ty = 1 ∨ ty = 2) {key : Bytes} (hkey : key ≠ []) :
    ReqOK { r with enc := ⟨ty, key⟩ } :=
  { noError := hr.noError, host := hr.host, ports := hr.ports, enc := Or.inr ⟨hty, hkey⟩, version := hr.version, iv := hr.iv }

/-- What the receiver tells: the url with the key; the messages depend on type and hash of the key only. -/
theorem cmdTellUrl_spec (E : MsgEnv) (r : TransferReq) (hr : ReqOK r) (ty : Int) (hty : ty = 1 ∨ ty = 2) (h : UInt64) :
    ∃ l, ∀ key, key ≠ [] → E.hash key = h → ∃ url, genUrlWithSecret { r with enc := ⟨ty, key⟩ } = .ok (some url) ∧
      cmdTellUrl E r ty key = .ok (url, l) := by
  obtain ⟨P, m, hP, hm, hmk, hser, hgen⟩ := genUrl_shape r hr ty hty
  obtain ⟨x, hx⟩ := toHex_small ty hty
  have hty0 : ty ≠ 0 := by omega
  let hs : Bytes := x :: 58 :: (lit "..." ++ intStr h.toNat ++ lit "...")
  obtain ⟨u1, hu1⟩ := generateUrl_total { hostName := r.hostName, port := P
                                          params := ((m.set (lit "dir") r.directory).set (lit "Enc") hs).set (lit "tls") (boolStr r.tls) }
  refine ⟨[wlog (lit "New encryption params " ++ E.addr ++ lit " " ++ hs)] ++ [wvlog (lit "Encryption data is set " ++ hs)] ++
    [wlog (lit "Starting receiver with connection url " ++ u1)] ++ [wvlog (lit "Encryption data is set " ++ hs)],
    fun key hkey hh => ?_⟩
  · obtain ⟨s, hs1, hs2, hs3, hg⟩ := hgen key hkey
    obtain ⟨u2, hu2⟩ := generateUrl_total { hostName := r.hostName, port := P
                                            params := (m.set (lit "Enc") s).set (lit "tls") (boolStr r.tls) }
    rw [hu2] at hg
    refine ⟨u2, hg, ?_⟩
    have hsafe : (⟨ty, key⟩ : EncParams).logSafe E = .ok hs := by
      obtain ⟨y, hy, hy'⟩ := logSafe_ok E ⟨ty, key⟩ hty
      rw [hx] at hy
      cases hy
      rw [hy', hh]
    have hnew : newEncParams E ty key = .ok (⟨ty, key⟩, [wlog (lit "New encryption params " ++ E.addr ++ lit " " ++ hs)]) := by
      unfold newEncParams
      rw [hsafe]
      simp only [bind, Except.bind]
      rw [if_neg (by omega)]
      rfl
    have hgl : ∀ full log, genUrlL E full log { r with enc := ⟨ty, key⟩ } = (do
        let m := if full then m.set (lit "dir") r.directory else m
        let m := (m.set (lit "Enc") (if log then hs else s)).set (lit "tls") (boolStr r.tls)
        let url ← generateUrl { hostName := r.hostName, port := P, params := m }
        pure (url, [wvlog (lit "Encryption data is set " ++ hs)])) := by
      intro full log
      unfold genUrlL
      rw [if_neg (show ¬ (r.errorCode ≠ eOK) by simp [hr.noError])]
      have hb : reqBaseParams { r with enc := ⟨ty, key⟩ } = reqBaseParams r := rfl
      cases full <;> cases log <;>
        simp only [bind, Except.bind, hb, hser, if_pos (show (⟨ty, key⟩ : EncParams).type ≠ 0 from hty0), hs1, hsafe, pure,
          Except.pure, if_true, if_false, Bool.false_eq_true] <;> rfl
    have e1 : reqLogSafe E { r with enc := ⟨ty, key⟩ } = .ok (u1, [wvlog (lit "Encryption data is set " ++ hs)]) := by
      unfold reqLogSafe
      rw [hgl]
      simp only [if_true, hu1]
      rfl
    have e2 : urlWithSecretL E { r with enc := ⟨ty, key⟩ } = .ok (u2, [wvlog (lit "Encryption data is set " ++ hs)]) := by
      unfold urlWithSecretL
      rw [hgl]
      simp only [if_false, Bool.false_eq_true, hu2]
      rfl
    unfold cmdTellUrl
    rw [hnew]
    simp only [bind, Except.bind, e1, e2, pure, Except.pure]

/-- The messages about an accepted url depend on type and hash of the key only. -/
theorem cmdTakeUrl_spec (E : MsgEnv) (pv : Int) (dir : Bytes) (r : TransferReq) (hr : ReqOK r) (ty : Int)
    (hty : ty = 1 ∨ ty = 2) (key key' : Bytes) (hk : key ≠ []) (hk' : key' ≠ []) (hh : E.hash key = E.hash key')
    (url url' : Bytes) (hu : genUrlWithSecret { r with enc := ⟨ty, key⟩ } = .ok (some url))
    (hu' : genUrlWithSecret { r with enc := ⟨ty, key'⟩ } = .ok (some url')) :
    ∃ l, cmdTakeUrl E pv dir url = .ok (some { r with enc := ⟨ty, key⟩, directory := dir }, l) ∧
      cmdTakeUrl E pv dir url' = .ok (some { r with enc := ⟨ty, key'⟩, directory := dir }, l) := by
  obtain ⟨P, m, hP, hm, hmk, hser, hgen⟩ := genUrl_shape r hr ty hty
  have hsafe : (⟨ty, key'⟩ : EncParams).logSafe E = (⟨ty, key⟩ : EncParams).logSafe E := by
    unfold EncParams.logSafe
    simp only [hh]
  -- the url and what `process` makes of it
  have hproc : ∀ key url, key ≠ [] → genUrlWithSecret { r with enc := ⟨ty, key⟩ } = .ok (some url) →
      ∃ s, s ≠ [] ∧ unserialize s = .ok (⟨ty, key⟩, eOK) ∧ processUrl url =
        { hostName := r.hostName, port := if P > 0 then P else -1
          params := ((m.set (lit "Enc") s).set (lit "tls") (boolStr r.tls)).filter (·.2 ≠ []), errorCode := eOK } := by
    intro key url hkey hu
    obtain ⟨s, hs1, hs2, hs3, hg⟩ := hgen key hkey
    have hok : ParamsOK ((m.set (lit "Enc") s).set (lit "tls") (boolStr r.tls)) := Params.set_ok _ _ _ (Params.set_ok _ _ _ hm)
    obtain ⟨u2, h1, h2⟩ := C37_url_roundtrip { hostName := r.hostName, port := P
                                               params := (m.set (lit "Enc") s).set (lit "tls") (boolStr r.tls) }
      hr.host hP hok (fun x hx => by
        apply reqKeys_ok
        rcases Params.set_keys _ _ _ x hx with h | h
        · rw [h.1]; decide +kernel
        rcases Params.set_keys _ _ _ x h with h | h
        · rw [h.1]; decide +kernel
        exact hmk x h)
    rw [h1, hu] at hg
    simp only [Except.map, Except.ok.injEq, Option.some.injEq] at hg
    subst hg
    exact ⟨s, hs2, hs3, h2⟩
  obtain ⟨s, hs2, hs3, hp⟩ := hproc key url hk hu
  obtain ⟨s', hs2', hs3', hp'⟩ := hproc key' url' hk' hu'
  have hok : ∀ s, ParamsOK ((m.set (lit "Enc") s).set (lit "tls") (boolStr r.tls)) :=
    fun s => Params.set_ok _ _ _ (Params.set_ok _ _ _ hm)
  have hgetE : ∀ s, Params.get (lit "Enc") ((m.set (lit "Enc") s).set (lit "tls") (boolStr r.tls)) = s := by
    intro s
    rw [Params.get_set, if_neg (by decide +kernel), Params.get_set, if_pos rfl]
  have hgetF : ∀ s, Params.get (lit "Enc") (((m.set (lit "Enc") s).set (lit "tls") (boolStr r.tls)).filter (·.2 ≠ [])) = s := by
    intro s
    rw [Params.get_filter _ (hok s), hgetE]
  have hsame := parseReqL_same E pv url url' _ _ ⟨ty, key⟩ ⟨ty, key'⟩ hp hp' rfl rfl rfl rfl
    (fun k hk => by
      dsimp only
      rw [getL_filter k (hok s), getL_filter k (hok s'), Params.get_set, Params.get_set, Params.get_set, Params.get_set,
        if_neg hk, if_neg hk])
    (by
      dsimp only
      rw [getL_filter _ (hok s), getL_filter _ (hok s'), hgetE, hgetE]
      dsimp only
      rw [if_neg hs2, if_neg hs2'])
    (by dsimp only; rw [hgetF]; exact hs2) (by dsimp only; rw [hgetF]; exact hs2')
    (by dsimp only; rw [hgetF]; exact hs3) (by dsimp only; rw [hgetF]; exact hs3') hsafe
  obtain ⟨url2, hv1, hv2⟩ := C37_request_roundtrip_partial pv _ (hr.withKey hty hk)
  rw [hu] at hv1
  simp only [Except.ok.injEq, Option.some.injEq] at hv1
  subst hv1
  have hpl := parseReqL_spec E pv url
  rw [hv2] at hpl
  rcases hr1 : parseReqL E pv url with f | ⟨q, l⟩
  · rw [hr1] at hpl; cases hpl
  rw [hr1] at hpl hsame
  simp only [Except.map, Except.ok.injEq] at hpl
  subst hpl
  simp only [Except.map] at hsame
  -- the log safe form
  have hty0 : ty ≠ 0 := by omega
  have hlog : ∀ key, genUrlL E true true { r with enc := ⟨ty, key⟩, directory := dir } = (do
      let h ← (⟨ty, key⟩ : EncParams).logSafe E
      let url ← generateUrl { hostName := r.hostName, port := P
                              params := ((m.set (lit "dir") dir).set (lit "Enc") h).set (lit "tls") (boolStr r.tls) }
      pure (url, [wvlog (lit "Encryption data is set " ++ h)])) := by
    intro key
    unfold genUrlL
    rw [if_neg (show ¬ (r.errorCode ≠ eOK) by simp [hr.noError])]
    have hb : reqBaseParams { r with enc := ⟨ty, key⟩, directory := dir } = reqBaseParams r := rfl
    obtain ⟨y, _, hy⟩ := logSafe_ok E ⟨ty, key⟩ hty
    simp only [bind, Except.bind, hb, hser, if_pos (show (⟨ty, key⟩ : EncParams).type ≠ 0 from hty0), hy, pure, Except.pure,
      if_true]
  have hl2 : ∃ x, reqLogSafe E { r with enc := ⟨ty, key⟩, directory := dir } = .ok x ∧
      reqLogSafe E { r with enc := ⟨ty, key'⟩, directory := dir } = .ok x := by
    unfold reqLogSafe
    rw [hlog, hlog, hsafe]
    obtain ⟨y, _, hy⟩ := logSafe_ok E ⟨ty, key⟩ hty
    rw [hy]
    obtain ⟨u, hu⟩ := generateUrl_total { hostName := r.hostName, port := P
                                          params := ((m.set (lit "dir") dir).set (lit "Enc") (y :: 58 :: (lit "..." ++
                                            intStr (E.hash key).toNat ++ lit "..."))).set (lit "tls") (boolStr r.tls) }
    refine ⟨(u, [wvlog (lit "Encryption data is set " ++ (y :: 58 :: (lit "..." ++ intStr (E.hash key).toNat ++ lit "...")))]), ?_, ?_⟩
    · simp only [bind, Except.bind, hu]; rfl
    · simp only [bind, Except.bind, hu]; rfl
  obtain ⟨⟨x, lx⟩, hx1, hx2⟩ := hl2
  refine ⟨l ++ lx ++ [wlog (lit "Parsed url as " ++ x)], ?_, ?_⟩
  · unfold cmdTakeUrl
    rw [hr1]
    simp only [bind, Except.bind]
    rw [if_neg (show ¬ (r.errorCode ≠ eOK) by simp [hr.noError])]
    rw [hx1]
    rfl
  · unfold cmdTakeUrl
    rw [hsame]
    simp only [bind, Except.bind]
    rw [if_neg (show ¬ (r.errorCode ≠ eOK) by simp [hr.noError])]
    rw [hx2]
    rfl

/-- **C103**: a receiver with the key `key` tells a url, and the sender that takes it gets that key; all messages of both
are the same if the key is another one with the same hash.  Missing from the full statement: that the hash is not in the
messages either, and urls that the sender does not accept; both are false, see below. -/
theorem C103_no_key_partial (E E' : MsgEnv) (pv : Int) (dir : Bytes) (r : TransferReq) (hr : ReqOK r) (ty : Int)
    (hty : ty = 1 ∨ ty = 2) (key key' : Bytes) (hk : key ≠ []) (hk' : key' ≠ [])
    (hh : E.hash key = E.hash key') (hh' : E'.hash key = E'.hash key') :
    ∃ url url' l l', cmdTellUrl E r ty key = .ok (url, l) ∧ cmdTellUrl E r ty key' = .ok (url', l) ∧
      cmdTakeUrl E' pv dir url = .ok (some { r with enc := ⟨ty, key⟩, directory := dir }, l') ∧
      cmdTakeUrl E' pv dir url' = .ok (some { r with enc := ⟨ty, key'⟩, directory := dir }, l') := by
  obtain ⟨l, hl⟩ := cmdTellUrl_spec E r hr ty hty (E.hash key)
  obtain ⟨url, h1, h2⟩ := hl key hk rfl
  obtain ⟨url', h1', h2'⟩ := hl key' hk' hh.symm
  obtain ⟨l', h3, h3'⟩ := cmdTakeUrl_spec E' pv dir r hr ty hty key key' hk hk' hh' url url' h1 h1'
  exact ⟨url, url', l, l', h2, h2', h3, h3'⟩

/-- Request of a receiver. -/
def exLogReq : TransferReq :=
  { transferId := lit "tid", protocolVersion := 32, ports := [22356, 22357], hostName := lit "host.example",
    ivChange := 1024 }

/-- Keys. -/
def exKey1 : Bytes := [0x12, 0x34, 0x56, 0x78, 0x9a, 0xbc, 0xde, 0xf0, 1, 2, 3, 4, 5, 6, 7, 8]
def exKey2 : Bytes := [0xff, 0xee, 0xdd, 0xcc, 0xbb, 0xaa, 0x99, 0x88, 8, 7, 6, 5, 4, 3, 2, 1]

/-- Messages with a hash that is the sum of the bytes, to have something definite. -/
def exMsgEnv : MsgEnv :=
  { hash := fun s => UInt64.ofNat (s.foldl (fun a c => a + c.toNat) 0), addr := lit "0x7f00",
    errStr := fun c => if c = eOK then lit "OK" else lit "ERROR", what := fun _ => [] }

theorem exLogReq_ok : ReqOK exLogReq :=
  { noError := rfl, host := by unfold HostOK; decide +kernel, ports := by
      constructor
      · decide
      · intro n h
        have := congrArg List.head? h
        cases n with
        | zero => simp [exLogReq] at this
        | succ n => simp [exLogReq, List.range_succ_eq_map] at this
    enc := Or.inl ⟨rfl, rfl⟩, version := by decide, iv := by decide }

/-- Two keys with the same hash. -/
example : ∃ url url' l l', cmdTellUrl exMsgEnv exLogReq 2 exKey1 = .ok (url, l) ∧
    cmdTellUrl exMsgEnv exLogReq 2 exKey1.reverse = .ok (url', l) ∧
    cmdTakeUrl exMsgEnv 32 [47] url = .ok (some { exLogReq with enc := ⟨2, exKey1⟩, directory := [47] }, l') ∧
    cmdTakeUrl exMsgEnv 32 [47] url' = .ok (some { exLogReq with enc := ⟨2, exKey1.reverse⟩, directory := [47] }, l') :=
  C103_no_key_partial exMsgEnv exMsgEnv 32 [47] exLogReq exLogReq_ok 2 (Or.inr rfl) exKey1 exKey1.reverse (by decide)
    (by decide) (by decide +kernel) (by decide +kernel)

/-- What is written. -/
example : (cmdTellUrl exMsgEnv exLogReq 2 exKey1).map (fun x => (x.1, x.2.map (·.text))) =
    .ok (lit "wdt://host.example:22356?Enc=2:123456789abcdef00102030405060708&id=tid&iv_change_int=1024&num_ports=2&recpv=32&tls=0",
      [lit "New encryption params 0x7f00 2:...1116...", lit "Encryption data is set 2:...1116...",
      lit "Starting receiver with connection url wdt://host.example:22356?Enc=2:...1116...&id=tid&iv_change_int=1024&num_ports=2&recpv=32&tls=0",
      lit "Encryption data is set 2:...1116..."]) := by decide +kernel

/-- **C103**, violated: whatever url is not accepted is written to the log as it is. -/
theorem C103_violated_rejected (E : MsgEnv) (pv : Int) (dir url : Bytes) (l : List LogLine)
    (h : cmdTakeUrl E pv dir url = .ok (none, l)) : ∃ x ∈ l, x.verbose = 0 ∧ url <:+: x.text := by
  unfold cmdTakeUrl at h
  rcases hp : parseReqL E pv url with f | ⟨r, l0⟩
  · rw [hp] at h; cases h
  rw [hp] at h
  simp only [bind, Except.bind] at h
  by_cases he : r.errorCode ≠ eOK
  · rw [if_pos he] at h
    simp only [pure, Except.pure, Except.ok.injEq, Prod.mk.injEq, true_and] at h
    subst h
    refine ⟨wlog (lit "Invalid url \"" ++ url ++ lit "\" : " ++ E.errStr r.errorCode), by simp, rfl, ?_⟩
    exact ⟨lit "Invalid url \"", lit "\" : " ++ E.errStr r.errorCode, by simp [wlog]⟩
  · rw [if_neg he] at h
    cases hl : reqLogSafe E { r with directory := dir } with
    | error f => rw [hl] at h; cases h
    | ok y => rw [hl] at h; cases h

/-- **C103**, violated: a url with its end cut off, as happens when it is copied by hand, is not accepted, and so the whole
key gets into the log, whatever the hash function. -/
theorem C103_violated_cut (E : MsgEnv) : ∃ url l cut l', cmdTellUrl E exLogReq 2 exKey1 = .ok (url, l) ∧ cut <+: url ∧
    cmdTakeUrl E 32 [] cut = .ok (none, l') ∧ ∃ x ∈ l', x.verbose = 0 ∧ lit "123456789abcdef00102030405060708" <:+: x.text := by
  obtain ⟨l, hl⟩ := cmdTellUrl_spec E exLogReq exLogReq_ok 2 (Or.inr rfl) (E.hash exKey1)
  obtain ⟨url, h1, h2⟩ := hl exKey1 (by decide) rfl
  have hurl : url = lit "wdt://host.example:22356?Enc=2:123456789abcdef00102030405060708&id=tid&iv_change_int=1024&num_ports=2&recpv=32&tls=0" := by
    have : genUrlWithSecret { exLogReq with enc := ⟨2, exKey1⟩ } = .ok (some (lit "wdt://host.example:22356?Enc=2:123456789abcdef00102030405060708&id=tid&iv_change_int=1024&num_ports=2&recpv=32&tls=0")) := by
      decide +kernel
    rw [this] at h1
    simpa using h1.symm
  let cut : Bytes := lit "wdt://host.example:22356?Enc=2:123456789abcdef00102030405060708&id=tid&iv_change_int=1024"
  have hparse : ∃ q, parseReq 32 cut = .ok q ∧ q.errorCode ≠ eOK := by
    have hd : (match parseReq 32 cut with | .ok q => decide (q.errorCode ≠ eOK) | .error _ => false) = true := by
      decide +kernel
    rcases hq : parseReq 32 cut with f | q
    · rw [hq] at hd; cases hd
    · rw [hq] at hd; exact ⟨q, rfl, by simpa using hd⟩
  obtain ⟨q, hq1, hq2⟩ := hparse
  have hpl := parseReqL_spec E 32 cut
  rw [hq1] at hpl
  rcases hr1 : parseReqL E 32 cut with f | ⟨q', l0⟩
  · rw [hr1] at hpl; cases hpl
  rw [hr1] at hpl
  simp only [Except.map, Except.ok.injEq] at hpl
  subst hpl
  have hc : cmdTakeUrl E 32 [] cut = .ok (none, l0 ++ [wlog (lit "Invalid url \"" ++ cut ++ lit "\" : " ++ E.errStr q'.errorCode)]) := by
    unfold cmdTakeUrl
    rw [hr1]
    simp only [bind, Except.bind]
    rw [if_pos hq2]
    rfl
  refine ⟨url, l, cut, _, h2, ?_, hc, ?_⟩
  · rw [hurl]
    exact ⟨lit "&num_ports=2&recpv=32&tls=0", by decide +kernel⟩
  · obtain ⟨x, hx, hv, hi⟩ := C103_violated_rejected E 32 [] cut _ hc
    refine ⟨x, hx, hv, List.IsInfix.trans ?_ hi⟩
    exact ⟨lit "wdt://host.example:22356?Enc=2:", lit "&id=tid&iv_change_int=1024", by decide +kernel⟩

/-- **C103**, violated: the messages of a receiver tell keys with different hashes apart. -/
theorem C103_violated_hash (E : MsgEnv) (r : TransferReq) (ty : Int) (hty : ty = 1 ∨ ty = 2) (key key' url url' : Bytes)
    (l l' : List LogLine) (h : cmdTellUrl E r ty key = .ok (url, l)) (h' : cmdTellUrl E r ty key' = .ok (url', l'))
    (hne : E.hash key ≠ E.hash key') : l ≠ l' := by
  obtain ⟨x, hx⟩ := toHex_small ty hty
  have first : ∀ key url l, cmdTellUrl E r ty key = .ok (url, l) → l.head? = some (wlog (lit "New encryption params " ++ E.addr ++
      lit " " ++ (x :: 58 :: (lit "..." ++ intStr (E.hash key).toNat ++ lit "..."))) ) := by
    intro key url l h
    obtain ⟨y, hy, hs⟩ := logSafe_ok E ⟨ty, key⟩ hty
    rw [hx] at hy
    cases hy
    unfold cmdTellUrl newEncParams at h
    rw [hs] at h
    simp only [bind, Except.bind] at h
    rw [if_neg (by omega)] at h
    simp only [pure, Except.pure] at h
    cases h1 : reqLogSafe E { r with enc := ⟨ty, key⟩ } with
    | error f => rw [h1] at h; cases h
    | ok a =>
      rw [h1] at h
      dsimp only at h
      cases h2 : urlWithSecretL E { r with enc := ⟨ty, key⟩ } with
      | error f => rw [h2] at h; cases h
      | ok b =>
        rw [h2] at h
        simp only [Except.ok.injEq, Prod.mk.injEq] at h
        rw [← h.2]
        rfl
  intro e
  have h1 := first key url l h
  have h2 := first key' url' l' h'
  rw [e, h2] at h1
  simp only [wlog, Option.some.injEq, LogLine.mk.injEq, true_and, List.append_cancel_left_eq, List.cons.injEq,
    List.append_cancel_right_eq] at h1
  have hb : ∀ n : UInt64, (((n.toNat : Nat) : Int)).natAbs < 10 ^ 20 := by
    intro n
    have := n.toNat_lt
    omega
  have r1 := strInt_intStr 0 18446744073709551616 ((E.hash key).toNat : Int) (by omega) (by have := (E.hash key).toNat_lt; omega) (hb _)
  have r2 := strInt_intStr 0 18446744073709551616 ((E.hash key').toNat : Int) (by omega) (by have := (E.hash key').toNat_lt; omega) (hb _)
  rw [← h1, r2] at r1
  apply hne
  apply UInt64.toNat_inj.1
  simp only [Option.some.injEq] at r1
  omega

/-- The hash of a key that is a short pass phrase (`test_only_encryption_secret`) gives it away. -/
example : exMsgEnv.hash exKey1 ≠ exMsgEnv.hash exKey2 := by decide +kernel

end Wdt
