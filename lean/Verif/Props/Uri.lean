import Verif.Lemmas.Uri
/-
C36, C37: escaping and connection urls.
-/
namespace Wdt

/-! ### Escaping -/

/-- `0-9 A-Z a-z` and `, : . _ + - %`. -/
def urlSafeChars : Bytes := lit "0123456789ABCDEFGHIJKLMNOPQRSTUVWXYZabcdefghijklmnopqrstuvwxyz,:._+-%"

theorem plain_safe (c : UInt8) : uriPlain c = true ∨ c = 37 ↔ c ∈ urlSafeChars :=
  forall_byte (P := fun c => uriPlain c = true ∨ c = 37 ↔ c ∈ urlSafeChars) (by decide +kernel) c

/-- **C36**: every value can be escaped, the result consists of safe characters only,
and un-escaping gives the value back. -/
theorem C36_escape_roundtrip (s : Bytes) : ∃ e, uriEscape s = .ok e ∧ uriUnescape e = (s, true) ∧
    ∀ c ∈ e, c ∈ urlSafeChars := by
  obtain ⟨e, h1, h2, h3, _⟩ := escape_spec s
  refine ⟨e, h1, ?_, fun c hc => (plain_safe c).1 (h3 c hc)⟩
  have := h2 []
  simpa [uriUnescape] using this

/-- None of the characters with a meaning in a url is safe. -/
example : ∀ c ∈ lit "?&=/[]# \"", c ∉ urlSafeChars := by decide +kernel

/-- **C36**: different values have different escaped forms. -/
theorem C36_escape_injective (s t : Bytes) (h : uriEscape s = uriEscape t) : s = t := by
  obtain ⟨e, h1, h2, _⟩ := C36_escape_roundtrip s
  obtain ⟨e', h1', h2', _⟩ := C36_escape_roundtrip t
  rw [h1, h1'] at h
  cases h
  rw [h2] at h2'
  exact congrArg Prod.fst h2'

/-- Text in which every `%` is followed by two lower case hex digits; and what it
stands for. -/
inductive Escaped : Bytes → Bytes → Prop
  | nil : Escaped [] []
  | char {c : UInt8} {s t : Bytes} : c ≠ 37 → Escaped s t → Escaped (c :: s) (c :: t)
  | hex {m n : Nat} {s t : Bytes} : m < 16 → n < 16 → Escaped s t →
      Escaped (37 :: (lit "0123456789abcdef").getD m 0 :: (lit "0123456789abcdef").getD n 0 :: s)
        (UInt8.ofNat (16 * m + n) :: t)

theorem fromHex_digit (c : UInt8) : (fromHex c = none ∧ c ∉ lit "0123456789abcdef") ∨
    ∃ m < 16, c = (lit "0123456789abcdef").getD m 0 ∧ fromHex c = some (UInt8.ofNat m) :=
  forall_byte (P := fun c => (fromHex c = none ∧ c ∉ lit "0123456789abcdef") ∨
    ∃ m < 16, c = (lit "0123456789abcdef").getD m 0 ∧ fromHex c = some (UInt8.ofNat m)) (by decide +kernel) c

theorem hex_join : ∀ m < 16, ∀ n < 16, (UInt8.ofNat m <<< 4 ||| UInt8.ofNat n) = UInt8.ofNat (16 * m + n) := by
  decide +kernel

theorem fromHex_of_digit : ∀ m < 16, fromHex ((lit "0123456789abcdef").getD m 0) = some (UInt8.ofNat m) := by
  decide +kernel

/-- **C36**: un-escaping accepts exactly the text in which every `%` is followed by two
lower case hex digits, and gives what that text stands for. -/
theorem C36_unescape_exact (s t : Bytes) : uriUnescape s = (t, true) ↔ Escaped s t := by
  constructor
  · intro h
    induction hn : s.length using Nat.strongRecOn generalizing s t with
    | _ n ih =>
      match s with
      | [] =>
        simp only [uriUnescape, Prod.mk.injEq, and_true] at h
        subst h
        exact .nil
      | c :: cs =>
        unfold uriUnescape at h
        split at h
        · rename_i hc
          rcases hr : uriUnescape cs with ⟨r, ok⟩
          rw [hr] at h
          simp only [Prod.mk.injEq] at h
          obtain ⟨rfl, rfl⟩ := h
          exact .char hc (ih cs.length (by simp at hn; omega) cs r hr rfl)
        · rename_i hc
          have hc : c = 37 := by simpa using hc
          subst hc
          split at h
          · rename_i x y rest
            rcases fromHex_digit x with ⟨hx, _⟩ | ⟨m, hm, ex, hx⟩
            · rw [hx] at h; simp at h
            rcases fromHex_digit y with ⟨hy, _⟩ | ⟨k, hk, ey, hy⟩
            · rw [hx, hy] at h; simp at h
            rw [hx, hy] at h
            simp only at h
            rcases hr : uriUnescape rest with ⟨r, ok⟩
            rw [hr] at h
            simp only [Prod.mk.injEq] at h
            obtain ⟨rfl, rfl⟩ := h
            rw [ex, ey, hex_join m hm k hk]
            exact .hex hm hk (ih rest.length (by simp at hn; omega) rest r hr rfl)
          · simp at h
  · intro h
    induction h with
    | nil => rfl
    | char hc _ ih => unfold uriUnescape; rw [if_pos hc, ih]
    | hex hm hn _ ih =>
      unfold uriUnescape
      rw [if_neg (by simp)]
      simp only
      rw [fromHex_of_digit _ hm, fromHex_of_digit _ hn]
      simp only
      rw [ih, hex_join _ hm _ hn]

example : ∃ s t, s = lit "a%2fb" ∧ t = lit "a/b" ∧ Escaped s t :=
  ⟨_, _, by decide +kernel, by decide +kernel,
    .char (c := 97) (by decide) (.hex (m := 2) (n := 15) (by decide) (by decide) (.char (c := 98) (by decide) .nil))⟩
/-- Upper case digits are refused, and so is a cut sequence. -/
example : uriUnescape (lit "a%2Fb") = (lit "a", false) ∧ uriUnescape (lit "ab%2") = (lit "ab", false) := by decide +kernel

/-! ### Url -/

/-- Host names that survive. -/
def HostOK (h : Bytes) : Prop :=
  h ≠ [] ∧ 0 ∉ h ∧ (if 58 ∈ h then 93 ∉ h else 63 ∉ h ∧ h.head? ≠ some 91)

/-- Keys that survive. -/
def KeyOK (k : Bytes) : Prop := k ≠ [] ∧ 38 ∉ k ∧ 61 ∉ k

/-- The text of the parameters. -/
def paramText : Params → Bytes → Prop
  | [], t => t = []
  | [(k, v)], t => ∃ e, uriEscape v = .ok e ∧ t = k ++ 61 :: e
  | (k, v) :: r, t => ∃ e t', uriEscape v = .ok e ∧ paramText r t' ∧ t = k ++ 61 :: e ++ 38 :: t'

theorem genParams_filter (pre : UInt8) : ∀ m : Params, genParams pre m = genParams pre (m.filter (·.2 ≠ []))
  | [] => rfl
  | (k, v) :: t => by
    by_cases hv : v = []
    · subst hv
      rw [List.filter_cons_of_neg (by simp)]
      rw [← genParams_filter pre t]
      conv => lhs; unfold genParams
      rw [if_pos rfl]
    · rw [List.filter_cons_of_pos (by simp [hv])]
      unfold genParams
      rw [if_neg hv, if_neg hv, genParams_filter 38 t]

theorem genParams_text : ∀ (m : Params) (pre : UInt8), (∀ x ∈ m, x.2 ≠ []) → m ≠ [] →
    ∃ t, genParams pre m = .ok (pre :: t) ∧ paramText m t
  | [], _, _, h => absurd rfl h
  | [(k, v)], pre, hv, _ => by
    obtain ⟨e, he, _⟩ := escape_spec v
    refine ⟨k ++ 61 :: e, ?_, e, he, rfl⟩
    unfold genParams
    rw [if_neg (hv (k, v) (by simp)), he]
    simp [genParams, bind, Except.bind, pure, Except.pure]
  | (k, v) :: y :: r, pre, hv, _ => by
    obtain ⟨e, he, _⟩ := escape_spec v
    obtain ⟨t, h1, h2⟩ := genParams_text (y :: r) 38 (fun x hx => hv x (by simp [hx])) (by simp)
    refine ⟨k ++ 61 :: e ++ 38 :: t, ?_, e, t, he, h2, rfl⟩
    unfold genParams
    rw [if_neg (hv (k, v) (by simp)), he, h1]
    simp [bind, Except.bind, pure, Except.pure]

theorem escaped_no_amp {v e : Bytes} (h : uriEscape v = .ok e) : 38 ∉ e := by
  obtain ⟨e', h1, _, h3, _⟩ := escape_spec v
  rw [h] at h1
  cases h1
  intro hm
  rcases h3 38 hm with h | h
  · revert h; decide
  · revert h; decide

theorem unescape_escaped {v e : Bytes} (h : uriEscape v = .ok e) : uriUnescape e = (v, true) := by
  obtain ⟨e', h1, h2, _⟩ := C36_escape_roundtrip v
  rw [h] at h1
  cases h1
  exact h2

theorem procParams_pair {k e : Bytes} (hk : KeyOK k) : splitStep 61 (k ++ 61 :: e) = (k, e) := splitStep_mid hk.2.2

/-- Parsing the text of parameters puts them in one after the other. -/
theorem procParams_text : ∀ (l : Params) (t : Bytes) (m : Params) (st : ErrCode) (fuel : Nat),
    paramText l t → (∀ x ∈ l, KeyOK x.1) → t.length < fuel →
    procParams fuel t m st = (l.foldl (fun m x => m.set x.1 x.2) m, st)
  | [], t, m, st, fuel, h, _, hf => by
    simp only [paramText] at h
    subst h
    match fuel, hf with
    | f + 1, _ => simp [procParams]
  | [(k, v)], t, m, st, fuel, h, hk, hf => by
    obtain ⟨e, he, rfl⟩ := h
    have hk := hk (k, v) (by simp)
    match fuel, hf with
    | f + 1, hf =>
      unfold procParams
      rw [if_neg (by simp)]
      have hn : 38 ∉ k ++ 61 :: e := by
        simp only [List.mem_append, List.mem_cons, not_or]
        exact ⟨hk.2.1, by decide, escaped_no_amp he⟩
      rw [splitStep_last hn]
      have hne : k ++ 61 :: e ≠ [] := by simp
      simp only [if_neg hne]
      rw [procParams_pair hk]
      simp only
      rw [if_neg hk.1, unescape_escaped he]
      simp only [if_true]
      match f with
      | 0 => simp [procParams]
      | f + 1 => simp [procParams]
  | (k, v) :: y :: r, t, m, st, fuel, h, hk, hf => by
    obtain ⟨e, t', he, ht, rfl⟩ := h
    have hk1 := hk (k, v) (by simp)
    match fuel, hf with
    | f + 1, hf =>
      unfold procParams
      rw [if_neg (by simp)]
      have hn : 38 ∉ k ++ 61 :: e := by
        simp only [List.mem_append, List.mem_cons, not_or]
        exact ⟨hk1.2.1, by decide, escaped_no_amp he⟩
      rw [splitStep_mid hn]
      have hne : k ++ 61 :: e ≠ [] := by simp
      simp only [if_neg hne]
      rw [procParams_pair hk1]
      simp only
      rw [if_neg hk1.1, unescape_escaped he]
      simp only [if_true]
      rw [procParams_text (y :: r) t' _ st f ht (fun x hx => hk x (by simp [hx])) (by simp at hf; omega)]
      rfl

/-- The text after the host. -/
theorem procRest_spec (host : Bytes) (port : Int) (l : Params) (t : Bytes) (hh : host ≠ []) (hl : ParamsOK l)
    (hp : port ≤ 2147483647) (ht : if l = [] then t = [] else ∃ t', t = 63 :: t' ∧ paramText l t')
    (hk : ∀ x ∈ l, KeyOK x.1) :
    procRest { hostName := host } ((if port > 0 then 58 :: intStr port else []) ++ t) =
      { hostName := host, port := if port > 0 then port else -1, params := l, errorCode := eOK } := by
  unfold procRest
  simp only [if_neg hh]
  have tail : ∀ p : Int, (if t = [] then ({ hostName := host, port := p, errorCode := eOK } : Uri)
      else if t.head? ≠ some 63 then { hostName := host, port := p, errorCode := eURI_PARSE_ERROR }
      else { hostName := host, port := p, params := (procParams (t.length + 1) t.tail [] eOK).1
             errorCode := (procParams (t.length + 1) t.tail [] eOK).2 }) =
      { hostName := host, port := p, params := l, errorCode := eOK } := by
    intro p
    by_cases e : l = []
    · rw [if_pos e] at ht
      rw [if_pos ht, e]
    · rw [if_neg e] at ht
      obtain ⟨t', rfl, ht⟩ := ht
      rw [if_neg (by simp), if_neg (by simp)]
      simp only [List.tail_cons]
      rw [procParams_text l t' [] eOK _ ht hk (by simp; omega)]
      rw [Params.rebuild l [] (by simpa using hl)]
      simp
  by_cases hpos : port > 0
  · simp only [if_pos hpos]
    have hb : port.natAbs < 10 ^ 20 := by omega
    obtain ⟨n1, n2⟩ := intStr_chars port hb
    rw [if_neg (by simp)]
    have hd : ∀ c ∈ intStr port, (c != 63) = true ∧ c ≠ 0 := by
      intro c hc
      rcases n2 c hc with h | rfl
      · obtain ⟨_, _, _, _, h5, h6, _⟩ := digit_facts c h
        exact ⟨by simp [h5], h6⟩
      · decide
    have ht' : t = [] ∨ ∃ t', t = 63 :: t' := by
      by_cases e : l = []
      · rw [if_pos e] at ht; exact Or.inl ht
      · rw [if_neg e] at ht
        obtain ⟨t', h, _⟩ := ht
        exact Or.inr ⟨t', h⟩
    have htw : (intStr port ++ t).takeWhile (· != 63) = intStr port := by
      rcases ht' with rfl | ⟨t', rfl⟩
      · rw [List.append_nil]; exact takeWhile_all fun c hc => (hd c hc).1
      · exact (takeWhile_stop (fun c hc => (hd c hc).1) (by simp)).1
    simp only [List.cons_append, List.head?_cons, if_true, List.drop_one, List.tail_cons, htw]
    rw [cAssign_prefix (fun h => (hd 0 h).2 rfl)]
    have := strInt_intStr (-2147483648) 2147483647 port (by omega) hp hb
    unfold strI32
    rw [this]
    simp only [List.drop_left]
    exact tail port
  · simp only [if_neg hpos, List.nil_append]
    by_cases e : t = []
    · have := tail (-1)
      rw [if_pos e] at this ⊢
      exact this
    · have h58 : ¬ t.head? = some 58 := by
        by_cases e' : l = []
        · rw [if_pos e'] at ht; exact absurd ht e
        · rw [if_neg e'] at ht
          obtain ⟨t', rfl, _⟩ := ht
          simp
      rw [if_neg e]
      simp only [if_neg h58, List.drop_one]
      have := tail (-1)
      rw [if_neg e] at this
      rw [if_neg e]
      exact this

/-- **C37**, the url itself: host name, port and parameters come back; a port that is
not positive comes back as "no port", and parameters without value are left out. -/
theorem C37_url_roundtrip (u : Uri) (hh : HostOK u.hostName) (hp : u.port ≤ 2147483647) (hm : ParamsOK u.params)
    (hk : ∀ x ∈ u.params, KeyOK x.1) :
    ∃ url, generateUrl u = .ok url ∧ processUrl url =
      { hostName := u.hostName, port := if u.port > 0 then u.port else -1
        params := u.params.filter (·.2 ≠ []), errorCode := eOK } := by
  obtain ⟨hne, h0, hcase⟩ := hh
  set_option linter.unusedVariables false in
  have hflt : ParamsOK (u.params.filter (·.2 ≠ [])) := List.Pairwise.filter _ hm
  have hkf : ∀ x ∈ u.params.filter (·.2 ≠ []), KeyOK x.1 := fun x hx => hk x (List.mem_filter.1 hx).1
  have hg : ∃ t, genParams 63 u.params = .ok t ∧
      (if u.params.filter (·.2 ≠ []) = [] then t = [] else ∃ t', t = 63 :: t' ∧ paramText (u.params.filter (·.2 ≠ [])) t') := by
    rw [genParams_filter]
    by_cases e : u.params.filter (·.2 ≠ []) = []
    · rw [e]
      exact ⟨[], rfl, by rw [if_pos rfl]⟩
    · obtain ⟨t, h1, h2⟩ := genParams_text (u.params.filter (·.2 ≠ [])) 63
        (fun x hx => by simpa using (List.mem_filter.1 hx).2) e
      exact ⟨_, h1, by rw [if_neg e]; exact ⟨t, rfl, h2⟩⟩
  obtain ⟨t, hg1, hg2⟩ := hg
  unfold generateUrl
  rw [hg1]
  refine ⟨_, rfl, ?_⟩
  have key := procRest_spec u.hostName u.port _ t hne hflt hp hg2 hkf
  generalize hr : (if u.port > 0 then 58 :: intStr u.port else []) ++ t = rest at key
  simp only [List.append_assoc, hr]
  have hstart : ∀ c, rest.head? = some c → c = 58 ∨ c = 63 := by
    intro c hc
    rw [← hr] at hc
    split at hc
    · simp at hc; exact Or.inl hc.symm
    · by_cases e : u.params.filter (·.2 ≠ []) = []
      · rw [if_pos e] at hg2; subst hg2; simp at hc
      · rw [if_neg e] at hg2
        obtain ⟨t', rfl, _⟩ := hg2
        simp at hc
        exact Or.inr hc.symm
  unfold processUrl
  generalize hhost : (if 58 ∈ u.hostName then 91 :: u.hostName ++ [93] else u.hostName) = host
  have e1 : ¬ (WDT_URL_PREFIX ++ (host ++ rest)).length < WDT_URL_PREFIX.length := by
    rw [List.length_append]; omega
  rw [if_neg e1, if_neg (by simp)]
  simp only [List.drop_left]
  have hne' : host ++ rest ≠ [] := by
    rw [← hhost]
    split <;> simp [hne]
  rw [if_neg hne']
  split at hhost
  · rename_i h58
    rw [if_pos h58] at hcase
    subst hhost
    rw [if_pos (by simp)]
    simp only [List.cons_append, List.append_assoc, List.nil_append, List.drop_one, List.tail_cons]
    rw [if_pos (by simp)]
    have hd : ∀ c ∈ u.hostName, (c != 93) = true := fun c hc => by
      simp only [bne_iff_ne]; rintro rfl; exact hcase hc
    rw [(takeWhile_stop (d := 93) (p := (· != 93)) (t := rest) hd (by simp)).1, cAssign_prefix h0]
    have : (u.hostName ++ 93 :: rest).drop (u.hostName.length + 1) = rest := by
      rw [List.drop_append]; simp
    rw [this]
    exact key
  · rename_i h58
    rw [if_neg h58] at hcase
    subst hhost
    rw [if_neg]
    · have hd : ∀ c ∈ u.hostName, (c != 58 && c != 63) = true := fun c hc => by
        simp only [Bool.and_eq_true, bne_iff_ne]
        exact ⟨by rintro rfl; exact h58 hc, by rintro rfl; exact hcase.1 hc⟩
      have htw : (u.hostName ++ rest).takeWhile (fun c => c != 58 && c != 63) = u.hostName := by
        cases rest with
        | nil => rw [List.append_nil]; exact takeWhile_all hd
        | cons c r =>
          refine (takeWhile_stop hd ?_).1
          rcases hstart c rfl with rfl | rfl <;> decide
      simp only [htw]
      rw [cAssign_prefix h0, List.drop_left]
      exact key
    · obtain ⟨x, xs, hx⟩ := List.exists_cons_of_ne_nil hne
      rw [hx] at hcase ⊢
      simpa using hcase.2

/-- An IPv6 host, a port and two parameters, one of them full of special characters. -/
example : ∃ u : Uri, HostOK u.hostName ∧ 58 ∈ u.hostName ∧ ParamsOK u.params ∧ (∀ x ∈ u.params, KeyOK x.1) ∧
    u.params.length = 2 ∧
    generateUrl u = .ok (lit "wdt://[::1]:22356?a=x%26y%3dz&b=1") :=
  ⟨{ hostName := lit "::1", port := 22356, params := [(lit "a", lit "x&y=z"), (lit "b", lit "1")] },
    by unfold HostOK; decide +kernel, by decide +kernel, by unfold ParamsOK; decide +kernel,
    by unfold KeyOK; decide +kernel, rfl, by decide +kernel⟩

end Wdt
