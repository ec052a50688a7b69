import Verif.Model.Uri
/-
C37, second part: a connection url of which a part cannot be understood is reported as such; nothing in it
is silently dropped or replaced by a default.
-/
namespace Wdt

/-- `p` is a non-empty entry of the comma separated list `s`. -/
def IsEntry (s p : Bytes) : Prop :=
  p ≠ [] ∧ (44 : UInt8) ∉ p ∧ ∃ a b, s = a ++ p ++ b ∧ (a = [] ∨ ∃ a', a = a' ++ [44]) ∧ (b = [] ∨ ∃ b', b = 44 :: b')

theorem takeWhile_comma {p b : Bytes} (hp : (44 : UInt8) ∉ p) (hb : b = [] ∨ ∃ b', b = 44 :: b') :
    (p ++ b).takeWhile (· != 44) = p ∧ ((p ++ b).dropWhile (· != 44)) = b := by
  induction p with
  | nil => rcases hb with rfl | ⟨b', rfl⟩ <;> simp
  | cons x xs ih =>
    have hx : x ≠ 44 := fun e => hp (by simp [e])
    have := ih (fun h => hp (List.mem_cons_of_mem _ h))
    simp [hx, this.1, this.2]

theorem entry_split {s p : Bytes} (h : IsEntry s p) : p = (splitStep 44 s).1 ∨ IsEntry (splitStep 44 s).2 p := by
  obtain ⟨hne, hp, a, b, rfl, ha, hb⟩ := h
  by_cases h44 : (44 : UInt8) ∈ a
  · right
    obtain ⟨x, y, rfl, hx⟩ := List.append_of_mem h44 |> fun ⟨_, _, _⟩ => List.eq_append_cons_of_mem h44
    refine ⟨hne, hp, y, b, ?_, ?_, hb⟩
    · have := (takeWhile_comma (b := 44 :: (y ++ (p ++ b))) hx (Or.inr ⟨_, rfl⟩)).2
      simp only [splitStep, List.append_assoc, List.cons_append]
      rw [this]
      simp
    · rcases ha with ha | ⟨a', ha⟩
      · simp at ha
      · cases hy : y.reverse with
        | nil => left; simpa using hy
        | cons z zs =>
          right
          have ey : y = zs.reverse ++ [z] := by
            have := congrArg List.reverse hy
            simpa using this
          refine ⟨zs.reverse, ?_⟩
          rw [ey] at ha ⊢
          have : (x ++ 44 :: zs.reverse) ++ [z] = a' ++ [44] := by simpa using ha
          have := (List.append_inj' this rfl).2
          simp at this
          rw [this]
  · left
    rcases ha with rfl | ⟨a', rfl⟩
    · simp only [splitStep, List.nil_append]
      exact (takeWhile_comma hp hb).1.symm
    · simp at h44

theorem drop_cases (s : Bytes) : (s.dropWhile (· != (44 : UInt8)) = [] ∧ (splitStep 44 s).2 = []) ∨
    s.dropWhile (· != (44 : UInt8)) = 44 :: (splitStep 44 s).2 := by
  cases h : s.dropWhile (· != (44 : UInt8)) with
  | nil => left; simp [splitStep, h]
  | cons x xs =>
    right
    have := List.head?_dropWhile_not (· != (44 : UInt8)) s
    rw [h] at this
    have hx : x = 44 := by simpa using this
    simp [splitStep, h, hx]

theorem entry_first {s : Bytes} (h : (splitStep 44 s).1 ≠ []) : IsEntry s (splitStep 44 s).1 := by
  refine ⟨h, ?_, [], s.dropWhile (· != 44), ?_, Or.inl rfl, ?_⟩
  · intro hm
    have := List.all_eq_true.1 (List.all_takeWhile (p := (· != (44 : UInt8))) (l := s)) 44 hm
    simp at this
  · simp [splitStep]
  · rcases drop_cases s with e | e
    · exact Or.inl e.1
    · exact Or.inr ⟨_, e⟩

theorem entry_rest {s p : Bytes} (h : IsEntry (splitStep 44 s).2 p) : IsEntry s p := by
  obtain ⟨hne, hp, a, b, hab, ha, hb⟩ := h
  rcases drop_cases s with e | e
  · rw [e.2] at hab
    exact absurd (by simpa using congrArg List.length hab.symm : _ ∧ _ ∧ _) (fun h => hne (by simpa using h.2.1))
  · refine ⟨hne, hp, s.takeWhile (· != 44) ++ 44 :: a, b, ?_, ?_, hb⟩
    · have := (List.takeWhile_append_dropWhile (p := (· != (44 : UInt8))) (l := s)).symm
      rw [e, hab] at this
      exact this.trans (by simp)
    · right
      rcases ha with rfl | ⟨a', rfl⟩
      · exact ⟨_, rfl⟩
      · exact ⟨s.takeWhile (· != 44) ++ 44 :: a', by simp⟩

theorem parsePorts_only (fuel : Nat) : ∀ (s : Bytes) (acc : List Int) (ec : ErrCode) (v : Int),
    v ∈ (parsePorts fuel s acc ec).1 → v ∈ acc ∨ ∃ p, IsEntry s p ∧ strI32 p = some v := by
  induction fuel with
  | zero => intro s acc ec v h; exact Or.inl h
  | succ f ih =>
    intro s acc ec v h
    unfold parsePorts at h
    have step : ∀ (acc' : List Int) (ec' : ErrCode),
        v ∈ (if (splitStep 44 s).2 = [] then (acc', ec') else parsePorts f (splitStep 44 s).2 acc' ec').1 →
        v ∈ acc' ∨ ∃ p, IsEntry s p ∧ strI32 p = some v := by
      intro acc' ec' hh
      by_cases e : (splitStep 44 s).2 = []
      · rw [if_pos e] at hh; exact Or.inl hh
      · rw [if_neg e] at hh
        rcases ih _ _ _ _ hh with h | ⟨p, hp, hv⟩
        · exact Or.inl h
        · exact Or.inr ⟨p, entry_rest hp, hv⟩
    by_cases hp : (splitStep 44 s).1 = []
    · simp only [hp, if_true] at h
      exact step _ _ h
    · simp only [hp, if_false] at h
      cases hs : strI32 (splitStep 44 s).1 with
      | none =>
        rw [hs] at h
        exact step acc eURI_PARSE_ERROR h
      | some w =>
        rw [hs] at h
        rcases step (acc ++ [w]) ec h with h | h
        · rcases List.mem_append.1 h with h | h
          · exact Or.inl h
          · rw [List.mem_singleton] at h
            subst h
            exact Or.inr ⟨_, entry_first hp, hs⟩
        · exact Or.inr h

theorem parsePorts_error (fuel : Nat) : ∀ (s : Bytes) (acc : List Int) (ec : ErrCode) (l : List Int),
    parsePorts fuel s acc ec = (l, eOK) → s.length < fuel →
    ec = eOK ∧ (∀ v ∈ acc, v ∈ l) ∧ ∀ p, IsEntry s p → ∃ v ∈ l, strI32 p = some v := by
  induction fuel with
  | zero => intro s acc ec l _ h; omega
  | succ f ih =>
    intro s acc ec l h hf
    unfold parsePorts at h
    have hlen : (splitStep 44 s).2 ≠ [] → (splitStep 44 s).2.length < f := by
      intro hne
      have h1 := (List.dropWhile_suffix (· != (44 : UInt8)) (l := s)).length_le
      have h2 : (splitStep 44 s).2.length = (s.dropWhile (· != 44)).length - 1 := by simp [splitStep]
      have h3 : (splitStep 44 s).2.length ≠ 0 := fun h => hne (List.length_eq_zero_iff.1 h)
      omega
    have step : ∀ (acc' : List Int) (ec' : ErrCode),
        (if (splitStep 44 s).2 = [] then (acc', ec') else parsePorts f (splitStep 44 s).2 acc' ec') = (l, eOK) →
        ec' = eOK ∧ (∀ v ∈ acc', v ∈ l) ∧ ∀ p, IsEntry (splitStep 44 s).2 p → ∃ v ∈ l, strI32 p = some v := by
      intro acc' ec' hh
      by_cases e : (splitStep 44 s).2 = []
      · rw [if_pos e] at hh
        cases hh
        refine ⟨rfl, fun v hv => hv, ?_⟩
        rintro p ⟨hne, _, a, b, hab, _⟩
        rw [e] at hab
        exact absurd (by simpa using congrArg List.length hab.symm : _ ∧ _ ∧ _) (fun h => hne (by simpa using h.2.1))
      · rw [if_neg e] at hh
        exact ih _ _ _ _ hh (hlen e)
    by_cases hp : (splitStep 44 s).1 = []
    · simp only [hp, if_true] at h
      obtain ⟨h1, h2, h3⟩ := step _ _ h
      refine ⟨h1, h2, fun p hpe => ?_⟩
      rcases entry_split hpe with e | e
      · exact absurd (e.trans hp) hpe.1
      · exact h3 p e
    · simp only [hp, if_false] at h
      cases hs : strI32 (splitStep 44 s).1 with
      | none =>
        rw [hs] at h
        exact absurd (show eURI_PARSE_ERROR = eOK from (step acc eURI_PARSE_ERROR h).1) (by decide)
      | some v =>
        rw [hs] at h
        obtain ⟨h1, h2, h3⟩ := step _ _ h
        refine ⟨h1, fun x hx => h2 x (by simp [hx]), fun p hpe => ?_⟩
        rcases entry_split hpe with e | e
        · subst e; exact ⟨v, h2 v (by simp), hs⟩
        · exact h3 p e

theorem optParam_error {α} {parse : Bytes → Option α} {s : Bytes} {d v : α} {ec : ErrCode}
    (h : optParam parse s d ec = (v, eOK)) : ec = eOK ∧ (s = [] ∧ v = d ∨ parse s = some v) := by
  unfold optParam at h
  split at h
  · cases h; exact ⟨rfl, Or.inl ⟨by assumption, rfl⟩⟩
  · split at h
    · cases h; exact ⟨rfl, Or.inr (by assumption)⟩
    · exact absurd (show eURI_PARSE_ERROR = eOK from congrArg Prod.snd h) (by decide)

theorem reqEnc_error {s : Bytes} {ec : ErrCode} {e : EncParams} (h : reqEnc s ec = .ok (e, eOK)) :
    ec = eOK ∧ (s = [] ∧ e = {} ∨ unserialize s = .ok (e, eOK)) := by
  unfold reqEnc at h
  split at h
  · cases h; exact ⟨rfl, Or.inl ⟨by assumption, rfl⟩⟩
  · split at h
    · cases h
    · rename_i e' code hu
      cases h' : decide (code = eOK) with
      | true =>
        have := of_decide_eq_true h'
        rw [if_pos this] at h
        cases h
        exact ⟨rfl, Or.inr (by rw [hu, this])⟩
      | false =>
        have hc := of_decide_eq_false h'
        rw [if_neg hc] at h
        have h2 : moreInteresting code ec = eOK := congrArg Prod.snd (Except.ok.inj h)
        exact absurd (Nat.max_eq_zero_iff.1 h2).1 hc

/-- A url is taken without complaint only if everything in it was understood: the url itself, the key, the
switches and numbers (each missing or a value, which is then the one used), and every entry of the list of
ports; without such a list there are a first port and a number of ports, and these are the ports used. -/
theorem C37_errors_reported (pv : Int) (url : Bytes) (r : TransferReq) (h : parseReq pv url = .ok r)
    (he : r.errorCode = eOK) :
    let get := fun k => (processUrl url).params.get (lit k)
    (processUrl url).errorCode = eOK ∧
    (get "Enc" = [] ∧ r.enc = {} ∨ unserialize (get "Enc") = .ok (r.enc, eOK)) ∧
    (get "tls" = [] ∧ r.tls = false ∨ strBool (get "tls") = some r.tls) ∧
    (get "dr" = [] ∧ r.dr = false ∨ strBool (get "dr") = some r.dr) ∧
    (get "recpv" = [] ∧ r.protocolVersion = pv ∨ strI64 (get "recpv") = some r.protocolVersion) ∧
    (get "iv_change_int" = [] ∧ r.ivChange = 0 ∨ strI64 (get "iv_change_int") = some r.ivChange) ∧
    (∀ p, IsEntry (get "ports") p → ∃ v ∈ r.ports, strI32 p = some v) ∧
    ((∃ p, IsEntry (get "ports") p) → ∀ v ∈ r.ports, ∃ p, IsEntry (get "ports") p ∧ strI32 p = some v) ∧
    ((∀ p, ¬ IsEntry (get "ports") p) → ∃ num, strI32 (get "num_ports") = some num ∧
      ∃ start, (start = (processUrl url).port ∧ 0 < start ∨ strI32 (get "start_port") = some start) ∧
        r.ports = (List.range num.toNat).map fun (i : Nat) => start + (i : Int)) := by
  intro get
  unfold parseReq at h
  simp only [bind, Except.bind] at h
  split at h
  · cases h
  rename_i x1 henc
  obtain ⟨enc, ec1⟩ := x1
  split at h
  · cases h
  rename_i x2 hports
  obtain ⟨ports, ec2⟩ := x2
  cases h
  dsimp only at he hports ⊢
  subst he
  have key : ∀ ec, reqPorts (processUrl url) ec = .ok (ports, eOK) → ec = eOK ∧
      (∀ p, IsEntry (get "ports") p → ∃ v ∈ ports, strI32 p = some v) ∧
      ((∃ p, IsEntry (get "ports") p) → ∀ v ∈ ports, ∃ p, IsEntry (get "ports") p ∧ strI32 p = some v) ∧
      ((∀ p, ¬ IsEntry (get "ports") p) → ∃ num, strI32 (get "num_ports") = some num ∧
        ∃ start, (start = (processUrl url).port ∧ 0 < start ∨ strI32 (get "start_port") = some start) ∧
          ports = (List.range num.toNat).map fun (i : Nat) => start + (i : Int)) := by
    intro ec hp
    unfold reqPorts at hp
    have honly := parsePorts_only ((get "ports").length + 1) (get "ports") [] ec
    have herr := parsePorts_error ((get "ports").length + 1) (get "ports") [] ec
    obtain ⟨l, e1, hpp⟩ : ∃ l e1, parsePorts ((get "ports").length + 1) (get "ports") [] ec = (l, e1) := ⟨_, _, rfl⟩
    have hpp' : parsePorts (((processUrl url).params.get (lit "ports")).length + 1) ((processUrl url).params.get (lit "ports")) [] ec = (l, e1) := hpp
    rw [hpp] at honly herr
    dsimp only at hp honly
    rw [hpp'] at hp
    dsimp only at hp
    by_cases hl : l = []
    · subst hl
      simp only [ne_eq, not_true_eq_false, if_false] at hp
      cases hs : reqStartPort (processUrl url) e1 with
      | mk start e2 =>
      rw [hs] at hp
      dsimp only at hp
      cases hn : reqNumPorts (processUrl url) e2 with
      | mk num e3 =>
      rw [hn] at hp
      dsimp only at hp
      by_cases h3 : e3 = eOK
      · rw [if_pos h3] at hp
        subst h3
        have h2 : e2 = eOK ∧ strI32 (get "num_ports") = some num := by
          unfold reqNumPorts at hn
          split at hn
          · exact absurd (show eINVALID_REQUEST = eOK from congrArg Prod.snd hn) (by decide)
          · rename_i hne
            obtain ⟨h, h' | h'⟩ := optParam_error hn
            · exact absurd h'.1 hne
            · exact ⟨h, h'⟩
        obtain ⟨rfl, hnum⟩ := h2
        have h1 : e1 = eOK ∧ (start = (processUrl url).port ∧ 0 < start ∨ strI32 (get "start_port") = some start) := by
          unfold reqStartPort at hs
          split at hs
          · split at hs
            · exact absurd (show eINVALID_REQUEST = eOK from congrArg Prod.snd hs) (by decide)
            · rename_i hne
              obtain ⟨h, h' | h'⟩ := optParam_error hs
              · exact absurd h'.1 hne
              · exact ⟨h, Or.inr h'⟩
          · cases hs
            exact ⟨rfl, Or.inl ⟨rfl, by omega⟩⟩
        obtain ⟨rfl, hstart⟩ := h1
        obtain ⟨h0, _, hent⟩ := herr [] rfl (by omega)
        have none : ∀ p, ¬ IsEntry (get "ports") p := by
          intro p hp
          obtain ⟨v, hv, _⟩ := hent p hp
          cases hv
        refine ⟨h0, fun p hp => absurd hp (none p), fun ⟨p, hp⟩ => absurd hp (none p), fun _ => ⟨num, hnum, start, hstart, ?_⟩⟩
        unfold genPortsVector at hp
        split at hp
        · cases hp
        · rename_i v hv
          cases hp
          split at hv
          · cases hv
          · cases hv; rfl
      · rw [if_neg h3] at hp
        exact absurd (congrArg Prod.snd (Except.ok.inj hp)) h3
    · rw [if_pos hl] at hp
      cases hp
      obtain ⟨h0, _, hent⟩ := herr ports rfl (by omega)
      refine ⟨h0, hent, fun _ v hv => ?_, fun hno => ?_⟩
      · rcases honly v hv with h | h
        · cases h
        · exact h
      · cases ports with
        | nil => exact absurd rfl hl
        | cons v vs =>
          rcases honly v (by simp) with h | ⟨p, hp, _⟩
          · cases h
          · exact absurd hp (hno p)
  obtain ⟨e5, hk⟩ := key _ hports
  have o4 := optParam_error (Prod.ext rfl e5 : optParam strI64 _ _ _ = (_, eOK))
  have o3 := optParam_error (Prod.ext rfl o4.1 : optParam strI64 _ _ _ = (_, eOK))
  have o2 := optParam_error (Prod.ext rfl o3.1 : optParam strBool _ _ _ = (_, eOK))
  have o1 := optParam_error (Prod.ext rfl o2.1 : optParam strBool _ _ _ = (_, eOK))
  have o0 : ec1 = eOK := o1.1
  subst o0
  have oe := reqEnc_error henc
  exact ⟨oe.1, oe.2, o1.2, o2.2, o3.2, o4.2, hk⟩

/-- Examples: a good url, and urls with a bad port, a bad version and a bad switch. -/
example : (∃ r, parseReq 31 (lit "wdt://h?ports=7,,9&recpv=30&tls=1") = .ok r ∧ r.errorCode = eOK ∧ r.ports = [7, 9] ∧ r.tls = true) ∧
    IsEntry (lit "7,,9") (lit "9") ∧
    (∃ r, parseReq 31 (lit "wdt://h?ports=7,x&recpv=30") = .ok r ∧ r.errorCode = eURI_PARSE_ERROR) ∧
    (∃ r, parseReq 31 (lit "wdt://h:7?num_ports=2&recpv=z") = .ok r ∧ r.errorCode = eURI_PARSE_ERROR) ∧
    (∃ r, parseReq 31 (lit "wdt://h:7?num_ports=2") = .ok r ∧ r.errorCode = eOK ∧ r.ports = [7, 8]) := by
  refine ⟨⟨{ protocolVersion := 30, ports := [7, 9], hostName := lit "h", tls := true }, by decide +kernel, rfl, rfl, rfl⟩,
    ⟨by decide +kernel, by decide +kernel, lit "7,,", [], by decide +kernel, Or.inr ⟨lit "7,", by decide +kernel⟩, Or.inl rfl⟩,
    ⟨{ protocolVersion := 30, ports := [7], hostName := lit "h", errorCode := eURI_PARSE_ERROR }, by decide +kernel, rfl⟩,
    ⟨{ protocolVersion := 31, ports := [], hostName := lit "h", errorCode := eURI_PARSE_ERROR }, by decide +kernel, rfl⟩,
    ⟨{ protocolVersion := 31, ports := [7, 8], hostName := lit "h" }, by decide +kernel, rfl, rfl⟩⟩

end Wdt
