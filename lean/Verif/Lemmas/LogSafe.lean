import Verif.Model.LogSafe
import Verif.Props.UriRequest
/-
Lemmas on the messages about urls.
-/
namespace Wdt

/-! ### The functions with messages have the results of those without -/

theorem uriUnescapeL_spec (w s : Bytes) : (uriUnescapeL w s).1 = (uriUnescape s).1 ∧
    (uriUnescapeL w s).2.1 = (uriUnescape s).2 ∧ ((uriUnescapeL w s).2.1 = true → (uriUnescapeL w s).2.2 = []) := by
  induction hn : s.length using Nat.strongRecOn generalizing s with
  | _ n ih =>
    match s with
    | [] => simp [uriUnescapeL, uriUnescape]
    | c :: cs =>
      unfold uriUnescapeL uriUnescape
      by_cases hc : c ≠ 37
      · rw [if_pos hc, if_pos hc]
        have := ih cs.length (by simp at hn; omega) cs rfl
        exact ⟨by simp [this.1], this.2.1, this.2.2⟩
      · rw [if_neg hc, if_neg hc]
        match cs with
        | [] => simp
        | [_] => simp
        | h :: l :: rest =>
          have := ih rest.length (by simp at hn; omega) rest rfl
          dsimp only
          cases fromHex h <;> cases fromHex l <;> simp_all

theorem procParamsL_spec (url : Bytes) : ∀ (f : Nat) (s : Bytes) (m : Params) (st : ErrCode),
    ((procParamsL url f s m st).1, (procParamsL url f s m st).2.1) = procParams f s m st ∧
    ((procParamsL url f s m st).2.1 = eOK → st = eOK ∧ (procParamsL url f s m st).2.2 = [])
  | 0, _, _, _ => ⟨rfl, fun h => ⟨h, rfl⟩⟩
  | f + 1, s, m, st => by
    unfold procParamsL procParams
    by_cases hs : s = []
    · rw [if_pos hs, if_pos hs]; exact ⟨rfl, fun h => ⟨h, rfl⟩⟩
    rw [if_neg hs, if_neg hs]
    rcases splitStep 38 s with ⟨kv, rest⟩
    dsimp only
    generalize (if kv = [] then (rest, ([] : Bytes)) else (kv, rest)) = kvr
    obtain ⟨kv, rest⟩ := kvr
    dsimp only
    rcases splitStep 61 kv with ⟨key, value⟩
    dsimp only
    by_cases hk : key = []
    · rw [if_pos hk, if_pos hk]
      exact ⟨rfl, fun h => absurd (show eURI_PARSE_ERROR = eOK from h) (by decide)⟩
    rw [if_neg hk, if_neg hk]
    obtain ⟨h1, h2, h3⟩ := uriUnescapeL_spec value value
    rcases hL : uriUnescapeL value value with ⟨v, ok, l⟩
    rw [hL] at h1 h2 h3
    dsimp only at h1 h2 h3 ⊢
    rw [← h1, ← h2]
    have ih := procParamsL_spec url f rest (m.set key v) (if ok then st else eURI_PARSE_ERROR)
    refine ⟨ih.1, fun h => ?_⟩
    obtain ⟨a, b⟩ := ih.2 h
    cases ok with
    | true => exact ⟨by simpa using a, by rw [b, h3 rfl]; rfl⟩
    | false => exact absurd (show eURI_PARSE_ERROR = eOK from a) (by decide)

theorem procRestL_spec (url : Bytes) (u : Uri) (s : Bytes) : (procRestL url u s).1 = procRest u s ∧
    ((procRestL url u s).1.errorCode = eOK → (procRestL url u s).2 = []) := by
  unfold procRestL procRest
  have hbad : ¬ eURI_PARSE_ERROR = eOK := by decide
  by_cases hh : u.hostName = []
  · simp only [if_pos hh]
    by_cases hs : s = []
    · simp only [if_pos hs]; exact ⟨trivial, fun h => absurd h hbad⟩
    simp only [if_neg hs]
    by_cases hc : s.head? = some 58
    · simp only [if_pos hc]
      rcases hp : strI32 (cAssign (s.drop 1) ((s.drop 1).takeWhile (· != 63)).length) with _ | p
      all_goals
        dsimp only
        generalize List.drop ((s.drop 1).takeWhile (· != 63)).length (s.drop 1) = s'
        by_cases hs' : s' = []
        · simp only [if_pos hs']; exact ⟨trivial, fun h => absurd h hbad⟩
        simp only [if_neg hs']
        by_cases h63 : s'.head? ≠ some 63
        · simp only [if_pos h63]; exact ⟨trivial, fun h => absurd h hbad⟩
        simp only [if_neg h63]
        have := procParamsL_spec url (s'.length + 1) (s'.drop 1) u.params eURI_PARSE_ERROR
        rw [← this.1]
        exact ⟨rfl, fun h => absurd (this.2 h).1 hbad⟩
    · simp only [if_neg hc, if_neg hs]
      by_cases h63 : s.head? ≠ some 63
      · simp only [if_pos h63]; exact ⟨trivial, fun h => absurd h hbad⟩
      simp only [if_neg h63]
      have := procParamsL_spec url (s.length + 1) (s.drop 1) u.params eURI_PARSE_ERROR
      rw [← this.1]
      exact ⟨rfl, fun h => absurd (this.2 h).1 hbad⟩
  · simp only [if_neg hh]
    by_cases hs : s = []
    · simp only [if_pos hs]; exact ⟨trivial, fun _ => trivial⟩
    simp only [if_neg hs]
    by_cases hc : s.head? = some 58
    · simp only [if_pos hc]
      rcases hp : strI32 (cAssign (s.drop 1) ((s.drop 1).takeWhile (· != 63)).length) with _ | p
      · dsimp only
        generalize List.drop ((s.drop 1).takeWhile (· != 63)).length (s.drop 1) = s'
        by_cases hs' : s' = []
        · simp only [if_pos hs']; exact ⟨trivial, fun h => absurd h hbad⟩
        simp only [if_neg hs']
        by_cases h63 : s'.head? ≠ some 63
        · simp only [if_pos h63]; exact ⟨trivial, fun h => absurd h hbad⟩
        simp only [if_neg h63]
        have := procParamsL_spec url (s'.length + 1) (s'.drop 1) u.params eURI_PARSE_ERROR
        rw [← this.1]
        exact ⟨rfl, fun h => absurd (this.2 h).1 hbad⟩
      · dsimp only
        generalize List.drop ((s.drop 1).takeWhile (· != 63)).length (s.drop 1) = s'
        by_cases hs' : s' = []
        · simp only [if_pos hs']; exact ⟨trivial, fun _ => trivial⟩
        simp only [if_neg hs']
        by_cases h63 : s'.head? ≠ some 63
        · simp only [if_pos h63]; exact ⟨trivial, fun h => absurd h hbad⟩
        simp only [if_neg h63]
        have := procParamsL_spec url (s'.length + 1) (s'.drop 1) u.params eOK
        rw [← this.1]
        exact ⟨rfl, fun h => by simpa using (this.2 h).2⟩
    · simp only [if_neg hc, if_neg hs]
      by_cases h63 : s.head? ≠ some 63
      · simp only [if_pos h63]; exact ⟨trivial, fun h => absurd h hbad⟩
      simp only [if_neg h63]
      have := procParamsL_spec url (s.length + 1) (s.drop 1) u.params eOK
      rw [← this.1]
      exact ⟨rfl, fun h => by simpa using (this.2 h).2⟩

/-- A url that `process` accepts is accepted in silence. -/
theorem processUrlL_spec (url : Bytes) : (processUrlL url).1 = processUrl url ∧
    ((processUrlL url).1.errorCode = eOK → (processUrlL url).2 = []) := by
  unfold processUrlL processUrl
  have hbad : ¬ eURI_PARSE_ERROR = eOK := by decide
  by_cases h1 : url.length < WDT_URL_PREFIX.length
  · rw [if_pos h1, if_pos h1]; exact ⟨rfl, fun h => absurd h hbad⟩
  rw [if_neg h1, if_neg h1]
  by_cases h2 : url.take WDT_URL_PREFIX.length ≠ WDT_URL_PREFIX
  · rw [if_pos h2, if_pos h2]; exact ⟨rfl, fun h => absurd h hbad⟩
  rw [if_neg h2, if_neg h2]
  dsimp only
  by_cases h3 : url.drop WDT_URL_PREFIX.length = []
  · rw [if_pos h3, if_pos h3]; exact ⟨rfl, fun h => absurd h hbad⟩
  rw [if_neg h3, if_neg h3]
  by_cases h4 : (url.drop WDT_URL_PREFIX.length).head? = some 91
  · rw [if_pos h4, if_pos h4]
    by_cases h5 : 93 ∈ (url.drop WDT_URL_PREFIX.length).drop 1
    · rw [if_pos h5, if_pos h5]; exact procRestL_spec _ _ _
    · rw [if_neg h5, if_neg h5]; exact ⟨rfl, fun h => absurd h hbad⟩
  · rw [if_neg h4, if_neg h4]; exact procRestL_spec _ _ _

theorem getL_fst (k : Bytes) : ∀ m : Params, (m.getL k).1 = m.get k
  | [] => rfl
  | (k', v) :: t => by
    unfold Params.getL Params.get
    split
    · rfl
    · exact getL_fst k t

/-- If empty values are left out, what `getQueryParam` does follows from the value. -/
theorem getL_filter (k : Bytes) : ∀ {m : Params}, ParamsOK m → (Params.getL k (m.filter (·.2 ≠ []))) =
    (m.get k, if m.get k = [] then [wvlog (lit "Couldn't find query param " ++ k)] else [])
  | [], _ => rfl
  | (k', v) :: t, h => by
    have hrest := List.pairwise_cons.1 h
    have ih := getL_filter k hrest.2
    by_cases hk : k = k'
    · subst hk
      have hnone : Params.get k t = [] := Params.get_none (fun x hx e => by
        have := hrest.1 x hx
        rw [e, bytesLt_irrefl] at this
        cases this)
      have hg : Params.get k ((k, v) :: t) = v := by unfold Params.get; rw [if_pos rfl]
      rw [hg]
      by_cases hv : v = []
      · rw [List.filter_cons_of_neg (by simp [hv]), ih, hnone, if_pos rfl, hv, if_pos rfl]
      · rw [List.filter_cons_of_pos (by simp [hv])]
        unfold Params.getL
        rw [if_pos rfl, if_neg hv]
    · have hg : Params.get k ((k', v) :: t) = Params.get k t := by conv => lhs; unfold Params.get; rw [if_neg hk]
      rw [hg]
      by_cases hv : v = []
      · rw [List.filter_cons_of_neg (by simp [hv]), ih]
      · rw [List.filter_cons_of_pos (by simp [hv])]
        conv => lhs; unfold Params.getL; rw [if_neg hk]
        exact ih

/-- `unserLoopL` forgetting the messages. -/
theorem unserLoopL_spec (i : Bytes) : ∀ (s : Bytes) (st : UnserSt) (t : Int) (d : Bytes),
    (unserLoopL i s st t d).map (fun x => (x.1, x.2.1, x.2.2.1)) = unserLoop s st t d
  | [], st, t, d => by cases st <;> rfl
  | c :: cs, .inType, t, d => by
    unfold unserLoopL unserLoop
    by_cases hc : c = 58
    · rw [if_pos hc, if_pos hc]
      by_cases ht : t = 0
      · rw [if_pos ht, if_pos ht]; rfl
      · rw [if_neg ht, if_neg ht]; exact unserLoopL_spec i cs _ _ _
    · rw [if_neg hc, if_neg hc]
      cases fromHex c with
      | none => rfl
      | some v =>
        dsimp only
        by_cases hb : t * 16 + v.toNat > 2147483647
        · rw [if_pos hb, if_pos hb]; rfl
        · rw [if_neg hb, if_neg hb]; exact unserLoopL_spec i cs _ _ _
  | c :: cs, .rightHex b, t, d => by
    unfold unserLoopL unserLoop
    cases fromHex c with
    | none => rfl
    | some v => exact unserLoopL_spec i cs _ _ _
  | c :: cs, .firstHex, t, d => by
    unfold unserLoopL unserLoop
    cases fromHex c with
    | none => rfl
    | some v => exact unserLoopL_spec i cs _ _ _
  | c :: cs, .leftHex, t, d => by
    unfold unserLoopL unserLoop
    cases fromHex c with
    | none => rfl
    | some v => exact unserLoopL_spec i cs _ _ _

theorem toHex_small (t : Int) (h : t = 1 ∨ t = 2) : ∃ x, toHex (UInt8.ofNat t.toNat) = .ok x := by
  rcases h with rfl | rfl
  · exact ⟨49, by decide⟩
  · exact ⟨50, by decide⟩

theorem logSafe_ok (E : MsgEnv) (e : EncParams) (h : e.type = 1 ∨ e.type = 2) : ∃ x, toHex (UInt8.ofNat e.type.toNat) = .ok x ∧
    e.logSafe E = .ok (x :: 58 :: (lit "..." ++ intStr (E.hash e.data).toNat ++ lit "...")) := by
  obtain ⟨x, hx⟩ := toHex_small e.type h
  exact ⟨x, hx, by unfold EncParams.logSafe; rw [hx]; rfl⟩

/-- Messages of `unserialize`, if it accepts. -/
def unserMsgs (E : MsgEnv) (h : Bytes) : List LogLine :=
  [wvlog (lit " Erasing EncryptionParams " ++ E.addr ++ lit " 0"), wvlog (lit "Deserialized Encryption Params " ++ h)]

theorem unserializeL_spec (E : MsgEnv) (s : Bytes) :
    (unserializeL E s).map (fun x => (x.1, x.2.1)) = unserialize s ∧
    ∀ e l, unserializeL E s = .ok (e, eOK, l) → ∃ h, e.logSafe E = .ok h ∧ l = unserMsgs E h := by
  unfold unserializeL unserialize
  have hl := unserLoopL_spec s s .inType 0 []
  rcases hr : unserLoopL s s .inType 0 [] with f | ⟨st, t, d, l⟩
  · rw [hr] at hl
    rw [← hl]
    exact ⟨rfl, fun e l h => by cases h⟩
  · rw [hr] at hl
    rw [← hl]
    have hne : ¬ eERROR = eOK := by decide
    have aux : ∀ {e e' : EncParams} {l l' : List LogLine}, (Except.ok (e', eERROR, l') : Except Fault _) = .ok (e, eOK, l) →
        ∃ h, e.logSafe E = .ok h ∧ l = unserMsgs E h := by
      intro e e' l l' h
      simp only [Except.ok.injEq, Prod.mk.injEq] at h
      exact absurd h.2.1 hne
    cases st with
    | none => exact ⟨rfl, fun e l h => aux h⟩
    | some st =>
      cases st with
      | inType => exact ⟨rfl, fun e l h => aux h⟩
      | firstHex => exact ⟨rfl, fun e l h => aux h⟩
      | rightHex b => exact ⟨rfl, fun e l h => aux h⟩
      | leftHex =>
        dsimp only [Except.map]
        rw [if_neg (show ¬ (UnserSt.leftHex ≠ UnserSt.leftHex) from fun h => h rfl),
          if_neg (show ¬ (some UnserSt.leftHex ≠ some UnserSt.leftHex) from fun h => h rfl)]
        by_cases ht : t ≤ 0 ∨ t ≥ 3
        · rw [if_pos ht, if_pos ht]
          exact ⟨rfl, fun e l h => aux h⟩
        · rw [if_neg ht, if_neg ht]
          obtain ⟨x, _, hx⟩ := logSafe_ok E ⟨t, d⟩ (by show t = 1 ∨ t = 2; omega)
          rw [hx]
          refine ⟨rfl, fun e l h => ?_⟩
          simp only [bind, Except.bind, pure, Except.pure, Except.ok.injEq, Prod.mk.injEq, true_and] at h
          obtain ⟨rfl, rfl⟩ := h
          exact ⟨_, hx, rfl⟩

theorem reqEncL_spec (E : MsgEnv) (s : Bytes) (ec : ErrCode) :
    (reqEncL E s ec).map (fun x => (x.1, x.2.1)) = reqEnc s ec := by
  unfold reqEncL reqEnc
  by_cases hs : s = []
  · rw [if_pos hs, if_pos hs]; rfl
  rw [if_neg hs, if_neg hs]
  have h := (unserializeL_spec E s).1
  rcases hr : unserializeL E s with f | ⟨e, code, l⟩
  · rw [hr] at h; rw [← h]; rfl
  · rw [hr] at h; rw [← h]
    dsimp only [Except.map]
    by_cases hc : code = eOK
    · rw [if_pos hc, if_pos hc]
    · rw [if_neg hc, if_neg hc]

theorem optParamL_spec {α} (parse : Bytes → Option α) (s : Bytes) (d : α) (ec : ErrCode) (miss : List LogLine) (pre we : Bytes) :
    ((optParamL parse s d ec miss pre we).1, (optParamL parse s d ec miss pre we).2.1) = optParam parse s d ec := by
  unfold optParamL optParam
  by_cases hs : s = []
  · rw [if_pos hs, if_pos hs]
  rw [if_neg hs, if_neg hs]
  cases parse s <;> rfl

theorem parsePortsL_spec : ∀ (f : Nat) (s : Bytes) (acc : List Int) (ec : ErrCode),
    ((parsePortsL f s acc ec).1, (parsePortsL f s acc ec).2.1) = parsePorts f s acc ec
  | 0, _, _, _ => rfl
  | f + 1, s, acc, ec => by
    unfold parsePortsL parsePorts
    rcases splitStep 44 s with ⟨p, rest⟩
    dsimp only
    by_cases hp : p = []
    · simp only [if_pos hp]
      by_cases hr : rest = []
      · simp only [if_pos hr]
      · simp only [if_neg hr]; exact parsePortsL_spec f rest acc ec
    simp only [if_neg hp]
    rcases strI32 p with _ | v
    · dsimp only
      by_cases hr : rest = []
      · simp only [if_pos hr]
      · simp only [if_neg hr]; exact parsePortsL_spec f rest acc _
    · dsimp only
      by_cases hr : rest = []
      · simp only [if_pos hr]
      · simp only [if_neg hr]; exact parsePortsL_spec f rest _ ec

theorem reqPortsL_spec (u : Uri) (ec : ErrCode) :
    (reqPortsL u ec).map (fun x => (x.1, x.2.1)) = reqPorts u ec := by
  unfold reqPortsL reqPorts reqStartPort reqNumPorts
  simp only [← getL_fst]
  rcases u.params.getL (lit "ports") with ⟨list, l1⟩
  rcases u.params.getL (lit "start_port") with ⟨sp, l3⟩
  rcases u.params.getL (lit "num_ports") with ⟨np, l4⟩
  dsimp only
  rw [← parsePortsL_spec]
  rcases parsePortsL (list.length + 1) list [] ec with ⟨ports, ec', l2⟩
  dsimp only
  by_cases hp : ports ≠ []
  · rw [if_pos hp, if_pos hp]; rfl
  rw [if_neg hp, if_neg hp]
  have e1 : ∀ {a : Int × ErrCode × List LogLine} {b : Int × ErrCode}, (a.1, a.2.1) = b → a.1 = b.1 ∧ a.2.1 = b.2 := by
    rintro ⟨x, y, z⟩ b h; subst h; exact ⟨rfl, rfl⟩
  generalize hA : (if u.port ≤ 0 then
        if sp = [] then (u.port, eINVALID_REQUEST, [wlog (lit "URI should have port or start_port")])
        else optParamL strI32 sp u.port ec' [] (lit "Couldn't convert start port ") []
      else (u.port, ec', [])) = A
  have hA' : (if u.port ≤ 0 then if sp = [] then (u.port, eINVALID_REQUEST) else optParam strI32 sp u.port ec'
      else (u.port, ec')) = (A.1, A.2.1) := by
    rw [← hA]
    by_cases h1 : u.port ≤ 0
    · rw [if_pos h1, if_pos h1]
      by_cases h2 : sp = []
      · rw [if_pos h2, if_pos h2]
      · rw [if_neg h2, if_neg h2, optParamL_spec]
    · rw [if_neg h1, if_neg h1]
  rw [hA']
  obtain ⟨start, ec2, l5⟩ := A
  dsimp only
  generalize hB : (if np = [] then ((0 : Int), eINVALID_REQUEST, [wlog (lit "URI should have num_ports")])
      else optParamL strI32 np 0 ec2 [] (lit "Couldn't convert num ports ") []) = B
  have hB' : (if np = [] then ((0 : Int), eINVALID_REQUEST) else optParam strI32 np 0 ec2) = (B.1, B.2.1) := by
    rw [← hB]
    by_cases h2 : np = []
    · rw [if_pos h2, if_pos h2]
    · rw [if_neg h2, if_neg h2, optParamL_spec]
  rw [hB']
  obtain ⟨num, ec3, l6⟩ := B
  dsimp only
  by_cases h : ec3 = eOK
  · rw [if_pos h, if_pos h]
    cases genPortsVector start num <;> rfl
  · rw [if_neg h, if_neg h]; rfl

theorem parseReqL_spec (E : MsgEnv) (pv : Int) (url : Bytes) : (parseReqL E pv url).map (·.1) = parseReq pv url := by
  unfold parseReqL parseReq
  have hu := (processUrlL_spec url).1
  rcases hL : processUrlL url with ⟨u, l0⟩
  rw [hL] at hu
  dsimp only at hu ⊢
  rw [← hu]
  simp only [← getL_fst]
  rcases u.params.getL (lit "Enc") with ⟨es, _⟩
  dsimp only
  rw [← reqEncL_spec E]
  rcases reqEncL E es u.errorCode with f | ⟨enc, ec, l⟩
  · rfl
  simp only [bind, Except.bind, Except.map]
  simp only [← optParamL_spec strBool (u.params.getL (lit "tls")).1 false ec [] (lit "Error parsing tls ")
    (lit " " ++ E.what (u.params.getL (lit "tls")).1)]
  rcases optParamL strBool (u.params.getL (lit "tls")).1 false ec [] (lit "Error parsing tls ")
    (lit " " ++ E.what (u.params.getL (lit "tls")).1) with ⟨tls, ec, l⟩
  dsimp only
  simp only [← optParamL_spec strBool (u.params.getL (lit "dr")).1 false ec [] (lit "Error parsing download resume ")
    (lit " " ++ E.what (u.params.getL (lit "dr")).1)]
  rcases optParamL strBool (u.params.getL (lit "dr")).1 false ec [] (lit "Error parsing download resume ")
    (lit " " ++ E.what (u.params.getL (lit "dr")).1) with ⟨dr, ec, l⟩
  dsimp only
  simp only [← optParamL_spec strI64 (u.params.getL (lit "recpv")).1 pv ec [wlog (lit "recpv not specified in URI")]
    (lit "Error parsing protocol version ") (lit " " ++ E.what (u.params.getL (lit "recpv")).1)]
  rcases optParamL strI64 (u.params.getL (lit "recpv")).1 pv ec [wlog (lit "recpv not specified in URI")]
    (lit "Error parsing protocol version ") (lit " " ++ E.what (u.params.getL (lit "recpv")).1) with ⟨ver, ec, l⟩
  dsimp only
  simp only [← optParamL_spec strI64 (u.params.getL (lit "iv_change_int")).1 0 ec [wlog (lit "iv_change_int not specified in URI")]
    (lit "Error parsing iv change interval ") (lit " " ++ E.what (u.params.getL (lit "iv_change_int")).1)]
  rcases optParamL strI64 (u.params.getL (lit "iv_change_int")).1 0 ec [wlog (lit "iv_change_int not specified in URI")]
    (lit "Error parsing iv change interval ") (lit " " ++ E.what (u.params.getL (lit "iv_change_int")).1) with ⟨iv, ec, l⟩
  dsimp only
  rw [← reqPortsL_spec]
  rcases reqPortsL u ec with f | ⟨ports, ec, l⟩ <;> rfl

/-! ### The messages about an accepted url -/

/-- Two urls that differ in the key only. -/
theorem parseReqL_same (E : MsgEnv) (pv : Int) (url url' : Bytes) (u u' : Uri) (e e' : EncParams)
    (hu : processUrl url = u) (hu' : processUrl url' = u') (h0 : u.errorCode = eOK) (h0' : u'.errorCode = eOK)
    (hh : u'.hostName = u.hostName) (hp : u'.port = u.port)
    (hk : ∀ k, k ≠ lit "Enc" → u'.params.getL k = u.params.getL k)
    (hl : (u'.params.getL (lit "Enc")).2 = (u.params.getL (lit "Enc")).2)
    (hne : u.params.get (lit "Enc") ≠ []) (hne' : u'.params.get (lit "Enc") ≠ [])
    (he : unserialize (u.params.get (lit "Enc")) = .ok (e, eOK))
    (he' : unserialize (u'.params.get (lit "Enc")) = .ok (e', eOK))
    (hs : e'.logSafe E = e.logSafe E) :
    parseReqL E pv url' = (parseReqL E pv url).map fun x => ({ x.1 with enc := e' }, x.2) := by
  have enc : ∀ (s : Bytes) (e : EncParams), s ≠ [] → unserialize s = .ok (e, eOK) →
      ∃ h, e.logSafe E = .ok h ∧ reqEncL E s eOK = .ok (e, eOK, unserMsgs E h) := by
    intro s e hs hun
    have hm := unserializeL_spec E s
    rw [hun] at hm
    rcases hr : unserializeL E s with f | ⟨e2, code, l⟩
    · rw [hr] at hm; cases hm.1
    · rw [hr] at hm
      have h1 := hm.1
      simp only [Except.map, Except.ok.injEq, Prod.mk.injEq] at h1
      obtain ⟨rfl, rfl⟩ := h1
      obtain ⟨h, ha, hb⟩ := hm.2 _ _ rfl
      refine ⟨h, ha, ?_⟩
      unfold reqEncL
      rw [if_neg hs, hr]
      dsimp only
      rw [if_pos rfl, hb]
  have hul : processUrlL url = (u, []) := by
    have h := processUrlL_spec url
    rw [hu] at h
    exact Prod.ext h.1 (h.2 (by rw [h.1]; exact h0))
  have hul' : processUrlL url' = (u', []) := by
    have h := processUrlL_spec url'
    rw [hu'] at h
    exact Prod.ext h.1 (h.2 (by rw [h.1]; exact h0'))
  obtain ⟨h, ha, hb⟩ := enc _ e hne he
  obtain ⟨h', ha', hb'⟩ := enc _ e' hne' he'
  have : h' = h := by
    rw [hs, ha] at ha'
    simpa using ha'.symm
  subst this
  have hports : ∀ ec, reqPortsL u' ec = reqPortsL u ec := by
    intro ec
    unfold reqPortsL
    rw [hk (lit "ports") (by decide +kernel), hk (lit "start_port") (by decide +kernel),
      hk (lit "num_ports") (by decide +kernel), hp]
  unfold parseReqL
  rw [hul, hul']
  dsimp only
  rw [h0, h0', getL_fst (lit "Enc") u.params, getL_fst (lit "Enc") u'.params, hb, hb', hl, hk (lit "id") (by decide +kernel), hk (lit "ns") (by decide +kernel),
    hk (lit "dstid") (by decide +kernel), hk (lit "dir") (by decide +kernel), hk (lit "tls") (by decide +kernel),
    hk (lit "dr") (by decide +kernel), hk (lit "recpv") (by decide +kernel), hk (lit "iv_change_int") (by decide +kernel)]
  simp only [bind, Except.bind, hports, hh]
  generalize reqPortsL u _ = X
  rcases X with f | ⟨ports, ec, l⟩ <;> rfl

/-! ### Generated urls -/

theorem genParams_total : ∀ (c : UInt8) (m : Params), ∃ s, genParams c m = .ok s
  | _, [] => ⟨[], rfl⟩
  | c, (k, v) :: t => by
    unfold genParams
    by_cases hv : v = []
    · rw [if_pos hv]; exact genParams_total c t
    · rw [if_neg hv]
      obtain ⟨e, he, _⟩ := escape_spec v
      obtain ⟨s, hs⟩ := genParams_total 38 t
      rw [he, hs]
      exact ⟨_, rfl⟩

theorem generateUrl_total (u : Uri) : ∃ s, generateUrl u = .ok s := by
  unfold generateUrl
  obtain ⟨s, hs⟩ := genParams_total 63 u.params
  rw [hs]
  exact ⟨_, rfl⟩

/-- The url of a request, as far as the key is concerned. -/
theorem genUrl_shape (r : TransferReq) (hr : ReqOK r) (ty : Int) (hty : ty = 1 ∨ ty = 2) : ∃ (P : Int) (m : Params),
    P ≤ 2147483647 ∧ ParamsOK m ∧ (∀ x ∈ m, x.1 ∈ reqKeys) ∧
    serializePorts r.ports { hostName := r.hostName, params := reqBaseParams r } =
      .ok { hostName := r.hostName, port := P, params := m } ∧
    ∀ key, key ≠ [] → ∃ s, (⟨ty, key⟩ : EncParams).urlSafe = .ok s ∧ s ≠ [] ∧ unserialize s = .ok (⟨ty, key⟩, eOK) ∧
      genUrlWithSecret { r with enc := ⟨ty, key⟩ } = (generateUrl { hostName := r.hostName, port := P
                                                                    params := (m.set (lit "Enc") s).set (lit "tls") (boolStr r.tls) }).map some := by
  have hbok : ParamsOK (reqBaseParams r) := by
    unfold reqBaseParams
    have h0 : ParamsOK (Params.set (lit "iv_change_int") (intStr r.ivChange) (Params.set (lit "recpv") (intStr r.protocolVersion)
        (Params.set (lit "dstid") r.destIdentifier (Params.set (lit "ns") r.wdtNamespace
          (Params.set (lit "id") r.transferId []))))) :=
      Params.set_ok _ _ _ (Params.set_ok _ _ _ (Params.set_ok _ _ _ (Params.set_ok _ _ _ (Params.set_ok _ _ _ List.Pairwise.nil))))
    dsimp only
    split
    · exact Params.set_ok _ _ _ h0
    · exact h0
  have hset : ∀ (k v : Bytes) (m : Params), k ∈ reqKeys → (∀ x ∈ m, x.1 ∈ reqKeys) → ∀ x ∈ m.set k v, x.1 ∈ reqKeys := by
    intro k v m hk hm x hx
    rcases Params.set_keys _ _ _ x hx with h | h
    · rw [h.1]; exact hk
    · exact hm x h
  have hbk : ∀ x ∈ reqBaseParams r, x.1 ∈ reqKeys := by
    unfold reqBaseParams
    have h0 : ∀ x ∈ (Params.set (lit "iv_change_int") (intStr r.ivChange) (Params.set (lit "recpv") (intStr r.protocolVersion)
        (Params.set (lit "dstid") r.destIdentifier (Params.set (lit "ns") r.wdtNamespace
          (Params.set (lit "id") r.transferId []))))), x.1 ∈ reqKeys :=
      hset _ _ _ (by decide +kernel) (hset _ _ _ (by decide +kernel) (hset _ _ _ (by decide +kernel)
        (hset _ _ _ (by decide +kernel) (hset _ _ _ (by decide +kernel) (by simp)))))
    dsimp only
    split
    · exact hset _ _ _ (by decide +kernel) h0
    · exact h0
  obtain ⟨P, m, hP, hm, hmk, hser⟩ : ∃ (P : Int) (m : Params), P ≤ 2147483647 ∧ ParamsOK m ∧ (∀ x ∈ m, x.1 ∈ reqKeys) ∧
      serializePorts r.ports { hostName := r.hostName, params := reqBaseParams r } =
        .ok { hostName := r.hostName, port := P, params := m } := by
    rcases serializePorts_spec r.ports hr.ports { hostName := r.hostName, params := reqBaseParams r } with h | ⟨p, n, h1, h2, h3, h4⟩
    · exact ⟨_, _, by show (-1 : Int) ≤ _; decide, Params.set_ok _ _ _ hbok, hset _ _ _ (by decide +kernel) hbk, h⟩
    · exact ⟨_, _, by omega, Params.set_ok _ _ _ hbok, hset _ _ _ (by decide +kernel) hbk, h4⟩
  refine ⟨P, m, hP, hm, hmk, hser, fun key hkey => ?_⟩
  obtain ⟨s, hs1, hs2, hs3⟩ := urlSafe_spec ⟨ty, key⟩ ⟨hty, hkey⟩
  refine ⟨s, hs1, hs2, hs3, ?_⟩
  have hty0 : ty ≠ 0 := by omega
  unfold genUrlWithSecret
  rw [if_neg (show ¬ (r.errorCode ≠ eOK) by simp [hr.noError])]
  have hb : reqBaseParams { r with enc := ⟨ty, key⟩ } = reqBaseParams r := rfl
  simp only [bind, Except.bind, hb, hser, if_pos (show (⟨ty, key⟩ : EncParams).type ≠ 0 from hty0), hs1, pure, Except.pure]
  generalize generateUrl _ = x
  cases x <;> rfl

end Wdt
