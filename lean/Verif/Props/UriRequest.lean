import Verif.Props.Uri
import Mathlib.Tactic.Ring
/-
C37: a request survives being written as a connection url.
-/
namespace Wdt

/-! ### Encryption parameters -/

theorem hexStr_spec (d : Bytes) : ∃ e, hexStr d = .ok e ∧ (d ≠ [] → e ≠ []) ∧
    ∀ (t : Int) (acc : Bytes) (st : UnserSt), st = .firstHex ∨ st = .leftHex → d ≠ [] →
      unserLoop e st t acc = .ok (some .leftHex, t, acc ++ d) := by
  induction d with
  | nil => exact ⟨[], rfl, by simp, fun _ _ _ _ h => absurd rfl h⟩
  | cons c cs ih =>
    obtain ⟨e, h1, _, h2⟩ := ih
    obtain ⟨h, l, m, n, q1, q2, q3, q4, q5, _⟩ := byte_hex c
    refine ⟨h :: l :: e, ?_, by simp, ?_⟩
    · unfold hexStr
      rw [q1, q2, h1]
      rfl
    · intro t acc st hst _
      have s1 : unserLoop (h :: l :: e) st t acc = unserLoop (l :: e) (.rightHex (m <<< 4)) t acc := by
        rcases hst with rfl | rfl <;> · conv => lhs; unfold unserLoop; simp only [q3]
      have s2 : unserLoop (l :: e) (.rightHex (m <<< 4)) t acc = unserLoop e .leftHex t (acc ++ [m <<< 4 ||| n]) := by
        conv => lhs; unfold unserLoop; simp only [q4]
      rw [s1, s2, q5]
      by_cases hc : cs = []
      · subst hc
        simp only [hexStr, Except.ok.injEq] at h1
        subst h1
        rfl
      · rw [h2 t _ .leftHex (Or.inr rfl) hc]
        simp

/-- A key that can be sent. -/
def EncOK (e : EncParams) : Prop := (e.type = 0 ∧ e.data = []) ∨ ((e.type = 1 ∨ e.type = 2) ∧ e.data ≠ [])

theorem urlSafe_spec (e : EncParams) (h : (e.type = 1 ∨ e.type = 2) ∧ e.data ≠ []) :
    ∃ s, e.urlSafe = .ok s ∧ s ≠ [] ∧ unserialize s = .ok (e, eOK) := by
  obtain ⟨d, h1, _, h2⟩ := hexStr_spec e.data
  obtain ⟨t, dat⟩ := e
  simp only at h h1 h2
  unfold EncParams.urlSafe
  simp only [h1]
  rcases h.1 with rfl | rfl
  · refine ⟨49 :: 58 :: d, rfl, by simp, ?_⟩
    have : unserLoop (49 :: 58 :: d) .inType 0 [] = unserLoop d .firstHex 1 [] := rfl
    unfold unserialize
    rw [this, h2 1 [] .firstHex (Or.inl rfl) h.2]
    rfl
  · refine ⟨50 :: 58 :: d, rfl, by simp, ?_⟩
    have : unserLoop (50 :: 58 :: d) .inType 0 [] = unserLoop d .firstHex 2 [] := rfl
    unfold unserialize
    rw [this, h2 2 [] .firstHex (Or.inl rfl) h.2]
    rfl

/-- **C37**, the key: type and every byte come back. -/
theorem C37_key_roundtrip (e : EncParams) (h : e.type = 1 ∨ e.type = 2) (hd : e.data ≠ []) :
    ∃ s, e.urlSafe = .ok s ∧ unserialize s = .ok (e, eOK) := by
  obtain ⟨s, h1, _, h3⟩ := urlSafe_spec e ⟨h, hd⟩
  exact ⟨s, h1, h3⟩

example : ({ type := 2, data := [0, 255, 58, 10] } : EncParams).urlSafe = .ok (lit "2:00ff3a0a") := by decide +kernel

/-- The value of a lower case hexadecimal digit. -/
def digitVal (c : UInt8) : Option Nat :=
  if 48 ≤ c.toNat ∧ c.toNat ≤ 57 then some (c.toNat - 48)
  else if 97 ≤ c.toNat ∧ c.toNat ≤ 102 then some (c.toNat - 87) else none

/-- The bytes that pairs of hexadecimal digits stand for. -/
def hexPairs : Bytes → Option Bytes
  | [] => some []
  | [_] => none
  | a :: b :: r => match digitVal a, digitVal b, hexPairs r with
    | some x, some y, some d => some (UInt8.ofNat (16 * x + y) :: d)
    | _, _, _ => none

/-- The number that hexadecimal digits stand for. -/
def hexNumber : Bytes → Option Nat
  | s => s.foldl (fun n c => match n, digitVal c with
    | some n, some v => some (16 * n + v)
    | _, _ => none) (some 0)

theorem fromHex_digitVal (c : UInt8) : (fromHex c).map UInt8.toNat = digitVal c ∧ ∀ v ∈ fromHex c, v.toNat < 16 := by
  have h : ∀ n < 256, (fromHex (UInt8.ofNat n)).map UInt8.toNat = digitVal (UInt8.ofNat n) ∧
      ∀ v ∈ fromHex (UInt8.ofNat n), v.toNat < 16 := by decide +kernel
  have := h c.toNat c.toNat_lt
  simpa using this

theorem nibbles (m n : UInt8) (hm : m.toNat < 16) (hn : n.toNat < 16) :
    m <<< 4 ||| n = UInt8.ofNat (16 * m.toNat + n.toNat) := by
  have h : ∀ a < 16, ∀ b < 16, UInt8.ofNat a <<< 4 ||| UInt8.ofNat b = UInt8.ofNat (16 * a + b) := by decide +kernel
  have := h _ hm _ hn
  simpa using this

theorem unserLoop_pairs (n : Nat) : ∀ (s : Bytes) (st : UnserSt) (t : Int) (d : Bytes) (t' : Int) (d' : Bytes), s.length ≤ n →
    st = .firstHex ∨ st = .leftHex → unserLoop s st t d = .ok (some .leftHex, t', d') →
    t' = t ∧ ∃ r, d' = d ++ r ∧ hexPairs s = some r ∧ (st = .firstHex → s ≠ []) := by
  induction n with
  | zero =>
    intro s st t d t' d' hn hst h
    obtain rfl : s = [] := List.length_eq_zero_iff.1 (by omega)
    simp only [unserLoop, Except.ok.injEq, Prod.mk.injEq, Option.some.injEq] at h
    obtain ⟨rfl, rfl, rfl⟩ := h
    exact ⟨rfl, [], by simp, rfl, by simp⟩
  | succ n ih =>
    intro s st t d t' d' hn hst h
    cases s with
    | nil =>
      simp only [unserLoop, Except.ok.injEq, Prod.mk.injEq, Option.some.injEq] at h
      obtain ⟨rfl, rfl, rfl⟩ := h
      exact ⟨rfl, [], by simp, rfl, by simp⟩
    | cons a s =>
      have h1 : ∃ m, fromHex a = some m ∧ unserLoop s (.rightHex (m <<< 4)) t d = .ok (some .leftHex, t', d') := by
        rcases hst with rfl | rfl <;>
        · unfold unserLoop at h
          split at h
          · simp at h
          · next v hv => exact ⟨v, hv, h⟩
      obtain ⟨m, ha, h2⟩ := h1
      cases s with
      | nil => simp [unserLoop] at h2
      | cons b s =>
        unfold unserLoop at h2
        split at h2
        · simp at h2
        next w hb =>
        obtain ⟨e1, r, e2, e3, _⟩ := ih s .leftHex t _ t' d' (by simp only [List.length_cons] at hn; omega) (Or.inr rfl) h2
        have va := fromHex_digitVal a
        have vb := fromHex_digitVal b
        rw [ha] at va; rw [hb] at vb
        have lm := va.2 m rfl
        have lw := vb.2 w rfl
        refine ⟨e1, (m <<< 4 ||| w) :: r, by rw [e2]; simp, ?_, by simp⟩
        unfold hexPairs
        rw [← va.1, ← vb.1, e3]
        simp only [Option.map_some]
        rw [nibbles m w lm lw]

theorem unserLoop_type : ∀ (s : Bytes) (t : Nat) (t' : Int) (d' : Bytes),
    unserLoop s .inType t [] = .ok (some .leftHex, t', d') →
    ∃ p q, s = p ++ 58 :: q ∧ q ≠ [] ∧ hexPairs q = some d' ∧
      p.foldl (fun n c => match n, digitVal c with
        | some n, some v => some (16 * n + v)
        | _, _ => none) (some t) = some t'.toNat := by
  intro s
  induction s with
  | nil => intro t t' d' h; simp [unserLoop] at h
  | cons c s ih =>
    intro t t' d' h
    unfold unserLoop at h
    by_cases hc : c = 58
    · rw [if_pos hc] at h
      by_cases h0 : (t : Int) = 0
      · rw [if_pos h0] at h; simp at h
      · rw [if_neg h0] at h
        obtain ⟨e1, r, e2, e3, e4⟩ := unserLoop_pairs s.length s .firstHex t [] t' d' (Nat.le_refl _) (Or.inl rfl) h
        refine ⟨[], s, by rw [hc]; rfl, e4 rfl, by rw [e3, e2]; rfl, ?_⟩
        rw [e1]; rfl
    · rw [if_neg hc] at h
      split at h
      · simp at h
      next v hv =>
      split at h
      · cases h
      have va := fromHex_digitVal c
      rw [hv] at va
      have e : (t : Int) * 16 + v.toNat = ((16 * t + v.toNat : Nat) : Int) := by push_cast; ring
      rw [e] at h
      obtain ⟨p, q, e1, e2, e3, e4⟩ := ih _ _ _ h
      refine ⟨c :: p, q, by rw [e1]; rfl, e2, e3, ?_⟩
      rw [List.foldl_cons, ← va.1]
      exact e4

/-- **C37**, the other direction: a text is taken for a key only if it is the number of a
cipher that exists, a colon, and pairs of digits, at least one; the key is the bytes
these stand for.  (Nothing is guessed for an odd digit or other characters.) -/
theorem C37_key_accepted (s : Bytes) (e : EncParams) (h : unserialize s = .ok (e, eOK)) :
    (e.type = 1 ∨ e.type = 2) ∧ e.data ≠ [] ∧
      ∃ p q, s = p ++ 58 :: q ∧ hexNumber p = some e.type.toNat ∧ hexPairs q = some e.data := by
  unfold unserialize at h
  split at h
  · cases h
  next st t d hl =>
  split at h
  · simp [eERROR, eOK] at h
  next hst =>
  split at h
  · simp [eERROR, eOK] at h
  next ht =>
  simp only [Except.ok.injEq, Prod.mk.injEq, and_true] at h
  subst h
  have hst' : st = some .leftHex := by simpa using hst
  subst hst'
  obtain ⟨p, q, e1, e2, e3, e4⟩ := unserLoop_type s 0 t d hl
  refine ⟨by show t = 1 ∨ t = 2; omega, ?_, p, q, e1, e4, e3⟩
  intro hd
  change d = [] at hd
  rw [hd] at e3
  match q, e2, e3 with
  | [_], _, e3 => simp [hexPairs] at e3
  | a :: b :: r, _, e3 =>
    unfold hexPairs at e3
    split at e3 <;> simp at e3

example : unserialize (lit "2:00ff3a0a") = .ok ({ type := 2, data := [0, 255, 58, 10] }, eOK) ∧
    unserialize (lit "2:00ff3a0") = .ok ({ data := [0, 255, 58] }, eERROR) := by decide +kernel

/-- Empty key: written, but not accepted. -/
theorem C37_violated_empty_key : ({ type := 1, data := [] } : EncParams).urlSafe = .ok (lit "1:") ∧
    unserialize (lit "1:") = .ok ({}, eERROR) := by decide +kernel

/-- A url can make the parser shift out of an `int`: undefined behaviour. -/
theorem C37_violated_type_overflow :
    parseReq 0 (lit "wdt://h:1?num_ports=1&Enc=ffffffff:00") = .error .ub := by decide +kernel

/-- Or add past the largest port number. -/
theorem C37_violated_port_overflow :
    parseReq 0 (lit "wdt://h:2147483647?num_ports=2") = .error .ub := by decide +kernel

/-! ### Ports -/

theorem intStr_small (p : Int) (h0 : 0 ≤ p) (h1 : p ≤ 65536) : intStr p ≠ [] ∧ 44 ∉ intStr p ∧ strI32 (intStr p) = some p := by
  have hb : p.natAbs < 10 ^ 20 := by omega
  obtain ⟨a, b⟩ := intStr_chars p hb
  refine ⟨a, ?_, strInt_intStr _ _ p (by omega) (by omega) hb⟩
  intro h
  rcases b 44 h with h | h
  · revert h; decide
  · revert h; decide

theorem parsePorts_spec : ∀ (ports : List Int) (fuel : Nat) (acc : List Int) (ec : ErrCode),
    (∀ p ∈ ports, 0 ≤ p ∧ p ≤ 65535) → ports ≠ [] → (portsStr ports).length < fuel →
    parsePorts fuel (portsStr ports) acc ec = (acc ++ ports, ec)
  | [], _, _, _, _, h, _ => absurd rfl h
  | [p], f + 1, acc, ec, hp, _, _ => by
    obtain ⟨a, b, c⟩ := intStr_small p (hp p (by simp)).1 (by have := (hp p (by simp)).2; omega)
    unfold parsePorts
    simp only [portsStr, splitStep_last b, if_neg a, c, if_true]
  | p :: q :: ps, f + 1, acc, ec, hp, _, hf => by
    obtain ⟨a, b, c⟩ := intStr_small p (hp p (by simp)).1 (by have := (hp p (by simp)).2; omega)
    unfold parsePorts
    have hne : portsStr (q :: ps) ≠ [] := by
      cases ps with
      | nil => exact (intStr_small q (hp q (by simp)).1 (by have := (hp q (by simp)).2; omega)).1
      | cons r rs => simp [portsStr]
    have e : portsStr (p :: q :: ps) = intStr p ++ 44 :: portsStr (q :: ps) := rfl
    rw [e] at hf ⊢
    simp only [splitStep_mid b, if_neg a, c, if_neg hne]
    rw [parsePorts_spec (q :: ps) f _ ec (fun x hx => hp x (by simp [hx])) (by simp) (by simp at hf; omega)]
    simp

/-- Consecutive or with a hole; decided without overflow. -/
theorem portsHoles_spec : ∀ (p : Int) (ps : List Int), (∀ x ∈ p :: ps, 0 ≤ x ∧ x ≤ 65535) →
    portsHoles (p :: ps) = .ok true ∨
    (portsHoles (p :: ps) = .ok false ∧ p :: ps = (List.range (ps.length + 1)).map fun (i : Nat) => p + (i : Int))
  | p, [], _ => Or.inr ⟨rfl, by simp⟩
  | p, q :: ps, h => by
    unfold portsHoles
    rw [if_neg (by have := h p (by simp); omega)]
    by_cases e : q = p + 1
    · subst e
      rw [if_neg (by simp)]
      rcases portsHoles_spec (p + 1) ps (fun x hx => h x (by simp [hx])) with h1 | ⟨h1, h2⟩
      · exact Or.inl h1
      · refine Or.inr ⟨h1, ?_⟩
        rw [List.range_succ_eq_map, List.map_cons, h2]
        simp only [List.length_cons, List.length_map, List.length_range, List.map_map, List.cons.injEq]
        refine ⟨by omega, ?_⟩
        apply List.map_congr_left
        intro i _
        simp only [Function.comp]
        omega
    · rw [if_pos e]
      exact Or.inl rfl

/-- Port lists that can be sent: real port numbers, and not 0, 1, 2, ... -/
def PortsOK (ports : List Int) : Prop :=
  (∀ p ∈ ports, 0 ≤ p ∧ p ≤ 65535) ∧ ∀ n : Nat, ports ≠ (List.range n).map fun (i : Nat) => (i : Int)

/-- Either a list in the parameter or a first port and a count. -/
theorem serializePorts_spec (ports : List Int) (h : PortsOK ports) (u : Uri) :
    serializePorts ports u = .ok { u with params := u.params.set (lit "ports") (portsStr ports) } ∨
    ∃ p n : Nat, 0 < p ∧ p + n ≤ 65535 ∧ ports = (List.range (n + 1)).map (fun (i : Nat) => (p : Int) + (i : Int)) ∧
      serializePorts ports u =
        .ok { u with port := p, params := u.params.set (lit "num_ports") (intStr ((n + 1 : Nat) : Int)) } := by
  cases ports with
  | nil => exact absurd rfl (h.2 0)
  | cons p ps =>
    unfold serializePorts
    rcases portsHoles_spec p ps h.1 with h1 | ⟨h1, h2⟩
    · simp only [h1]; exact Or.inl rfl
    · right
      have hp := h.1 p (by simp)
      refine ⟨p.toNat, ps.length, ?_, ?_, ?_, ?_⟩
      · rcases Nat.eq_zero_or_pos p.toNat with h0 | h0
        · exfalso
          have : p = 0 := by omega
          subst this
          apply h.2 (ps.length + 1)
          rw [h2]
          simp
        · exact h0
      · have : p + (ps.length : Int) ∈ p :: ps := by
          rw [h2]
          exact List.mem_map.2 ⟨ps.length, by simp, rfl⟩
        have := h.1 _ this
        omega
      · have e : (p.toNat : Int) = p := by omega
        rw [e]; exact h2
      · have e : (p.toNat : Int) = p := by omega
        simp only [h1, e]
        rfl

/-! ### Request -/

/-- Requests that can be sent. -/
structure ReqOK (r : TransferReq) : Prop where
  noError : r.errorCode = eOK
  host : HostOK r.hostName
  ports : PortsOK r.ports
  enc : EncOK r.enc
  version : -9223372036854775808 ≤ r.protocolVersion ∧ r.protocolVersion ≤ 9223372036854775807
  iv : -9223372036854775808 ≤ r.ivChange ∧ r.ivChange ≤ 9223372036854775807

theorem optI64 {i : Int} (h : -9223372036854775808 ≤ i ∧ i ≤ 9223372036854775807) (d : Int) (ec : ErrCode) :
    optParam strI64 (intStr i) d ec = (i, ec) := by
  have hb : i.natAbs < 10 ^ 20 := by omega
  unfold optParam
  rw [if_neg (intStr_chars i hb).1]
  unfold strI64
  rw [strInt_intStr _ _ i h.1 h.2 hb]

theorem optBool (b : Bool) (ec : ErrCode) : optParam strBool (boolStr b) false ec = (b, ec) := by
  cases b <;> rfl

theorem optDr (b : Bool) (ec : ErrCode) : optParam strBool (if b = true then boolStr b else []) false ec = (b, ec) := by
  cases b <;> rfl

/-- What the parser makes of a url whose parameters it read correctly. -/
theorem parseReq_spec (pv : Int) (url : Bytes) (u : Uri) (r : TransferReq) (encs : Bytes)
    (hu : processUrl url = u) (h0 : u.errorCode = eOK) (hhost : u.hostName = r.hostName)
    (hid : u.params.get (lit "id") = r.transferId) (hns : u.params.get (lit "ns") = r.wdtNamespace)
    (hdst : u.params.get (lit "dstid") = r.destIdentifier) (hdir : u.params.get (lit "dir") = [])
    (henc : u.params.get (lit "Enc") = encs)
    (henc' : if encs = [] then r.enc = {} else unserialize encs = .ok (r.enc, eOK))
    (htls : u.params.get (lit "tls") = boolStr r.tls)
    (hdr : u.params.get (lit "dr") = if r.dr = true then boolStr r.dr else [])
    (hver : u.params.get (lit "recpv") = intStr r.protocolVersion)
    (hiv : u.params.get (lit "iv_change_int") = intStr r.ivChange)
    (hr : ReqOK r)
    (hports : u.params.get (lit "ports") = portsStr r.ports ∨
      (u.params.get (lit "ports") = [] ∧ ∃ p n : Nat, 0 < p ∧ p + n ≤ 65535 ∧
        r.ports = (List.range (n + 1)).map (fun (i : Nat) => (p : Int) + (i : Int)) ∧ u.port = p ∧
        u.params.get (lit "num_ports") = intStr ((n + 1 : Nat) : Int))) :
    parseReq pv url = .ok { r with directory := [] } := by
  have hErr := hr.noError
  unfold parseReq
  rw [hu]
  simp only [hid, hns, hdst, hdir, henc, htls, hdr, hver, hiv, hhost]
  have e1 : reqEnc encs u.errorCode = .ok (r.enc, eOK) := by
    unfold reqEnc
    split at henc'
    · rename_i h; rw [if_pos h, henc', h0]
    · rename_i h; rw [if_neg h, henc', h0]; rfl
  have e6 : reqPorts u eOK = .ok (r.ports, eOK) := by
    unfold reqPorts
    rcases hports with hp | ⟨hp, p, n, hp1, hp2, hp3, hp4, hp5⟩
    · rw [hp]
      have hne : r.ports ≠ [] := hr.ports.2 0
      simp only
      rw [parsePorts_spec r.ports _ [] eOK hr.ports.1 hne (by omega)]
      simp only [List.nil_append, if_pos hne]
    · rw [hp]
      have e2 : parsePorts (([] : Bytes).length + 1) [] [] eOK = ([], eOK) := rfl
      simp only [e2]
      obtain ⟨a, _, c⟩ := intStr_small ((n + 1 : Nat) : Int) (by omega) (by omega)
      have e3 : reqStartPort u eOK = ((p : Int), eOK) := by
        unfold reqStartPort
        rw [hp4, if_neg (by omega)]
      have e4 : reqNumPorts u eOK = (((n + 1 : Nat) : Int), eOK) := by
        unfold reqNumPorts optParam
        rw [hp5, if_neg a, if_neg a, c]
      have e5 : genPortsVector p ((n + 1 : Nat) : Int) = .ok r.ports := by
        unfold genPortsVector
        rw [if_neg (by omega), hp3]
        have e5 : ((n + 1 : Nat) : Int).toNat = n + 1 := by omega
        rw [e5]
      rw [e3]
      simp only [e4, e5, ne_eq, not_true_eq_false, if_false, if_true]
  rw [e1]
  simp only [bind, Except.bind, optBool, optDr, optI64 hr.version, optI64 hr.iv, e6]
  rw [← hErr]
  rfl

/-- The keys that are used. -/
def reqKeys : List Bytes :=
  [lit "id", lit "ns", lit "dstid", lit "recpv", lit "iv_change_int", lit "dr", lit "ports", lit "num_ports", lit "Enc",
   lit "tls", lit "dir"]

theorem reqKeys_ok : ∀ k ∈ reqKeys, KeyOK k := by unfold KeyOK; decide +kernel

theorem reqKeys_nodup : reqKeys.Nodup := by decide +kernel

/-- A map filled one parameter after the other. -/
def fill (l : Params) : Params := l.foldl (fun m x => m.set x.1 x.2) []

theorem fill_snoc (l : Params) (k v : Bytes) : fill (l ++ [(k, v)]) = (fill l).set k v := by simp [fill]

/-- The value of a key after all assignments. -/
def lastVal (k : Bytes) (l : Params) (d : Bytes) : Bytes := l.foldl (fun a x => if k = x.1 then x.2 else a) d

theorem lastVal_append (k : Bytes) (l l' : Params) (d : Bytes) : lastVal k (l ++ l') d = lastVal k l' (lastVal k l d) := by
  simp [lastVal]

theorem fill_get (k : Bytes) (l : Params) : (fill l).get k = lastVal k l [] := by
  suffices ∀ (l m : Params), (l.foldl (fun m x => m.set x.1 x.2) m).get k = lastVal k l (m.get k) from this l []
  intro l
  induction l with
  | nil => intro m; rfl
  | cons x t ih =>
    intro m
    rw [List.foldl_cons, ih, Params.get_set]
    rfl

theorem fill_ok (l : Params) : ParamsOK (fill l) := by
  suffices ∀ (l m : Params), ParamsOK m → ParamsOK (l.foldl (fun m x => m.set x.1 x.2) m) from
    this l [] List.Pairwise.nil
  intro l
  induction l with
  | nil => intro m h; exact h
  | cons x t ih => intro m h; exact ih _ (Params.set_ok _ _ _ h)

theorem fill_keys (l : Params) (K : List Bytes) (h : ∀ x ∈ l, x.1 ∈ K) : ∀ x ∈ fill l, x.1 ∈ K := by
  suffices ∀ (l m : Params), (∀ x ∈ l, x.1 ∈ K) → (∀ x ∈ m, x.1 ∈ K) →
      ∀ x ∈ l.foldl (fun m x => m.set x.1 x.2) m, x.1 ∈ K from this l [] h (by simp)
  intro l
  induction l with
  | nil => intro m _ h; exact h
  | cons y t ih =>
    intro m hl hm
    refine ih _ (fun x hx => hl x (by simp [hx])) ?_
    intro x hx
    rcases Params.set_keys _ _ _ x hx with h | h
    · rw [h.1]; exact hl y (by simp)
    · exact hm x h

/-- **C37**: parsing the url generated from a request gives the request back, except
for the directory, which is not part of the url.  Missing from the full statement:
requests for the ports 0, 1, ..., n-1 and encrypted ones with an empty key, see below. -/
theorem C37_request_roundtrip_partial (pv : Int) (r : TransferReq) (hr : ReqOK r) :
    ∃ url, genUrlWithSecret r = .ok (some url) ∧ parseReq pv url = .ok { r with directory := [] } := by
  -- the parameters, in the order in which they are set
  let base : Params := [(lit "id", r.transferId), (lit "ns", r.wdtNamespace), (lit "dstid", r.destIdentifier),
    (lit "recpv", intStr r.protocolVersion), (lit "iv_change_int", intStr r.ivChange)] ++
    (if r.dr then [(lit "dr", boolStr r.dr)] else [])
  have hbase : reqBaseParams r = fill base := by
    unfold reqBaseParams
    cases h : r.dr <;> simp [base, fill, h]
  have hs := serializePorts_spec r.ports hr.ports { hostName := r.hostName, params := fill base }
  have hsp : ∃ kp vp P, serializePorts r.ports { hostName := r.hostName, params := fill base } =
      .ok { hostName := r.hostName, port := P, params := fill (base ++ [(kp, vp)]) } ∧
      P ≤ 2147483647 ∧
      ((kp = lit "ports" ∧ vp = portsStr r.ports) ∨
        (kp = lit "num_ports" ∧ ∃ p n : Nat, 0 < p ∧ p + n ≤ 65535 ∧
          r.ports = (List.range (n + 1)).map (fun (i : Nat) => (p : Int) + (i : Int)) ∧ P = p ∧
          vp = intStr ((n + 1 : Nat) : Int))) := by
    rcases hs with h | ⟨p, n, h1, h2, h3, h4⟩
    · exact ⟨_, _, _, by rw [h, fill_snoc], by show (-1 : Int) ≤ _; decide, Or.inl ⟨rfl, rfl⟩⟩
    · exact ⟨_, _, _, by rw [h4, fill_snoc], by omega, Or.inr ⟨rfl, p, n, h1, h2, h3, rfl, rfl⟩⟩
  obtain ⟨kp, vp, P, hser, hP, hkp⟩ := hsp
  have henc : ∃ encs, (if encs = [] then r.enc = {} else unserialize encs = .ok (r.enc, eOK)) ∧
      (if r.enc.type ≠ 0 then ∃ h : encs ≠ [], r.enc.urlSafe = .ok encs else encs = []) := by
    rcases hr.enc with ⟨h1, h2⟩ | h
    · refine ⟨[], ?_, by rw [if_neg (by simp [h1])]⟩
      rw [if_pos rfl]
      rcases he : r.enc with ⟨t, d⟩
      rw [he] at h1 h2
      simp only at h1 h2
      rw [h1, h2]
    · obtain ⟨s, h1, h2, h3⟩ := urlSafe_spec r.enc h
      refine ⟨s, by rw [if_neg h2]; exact h3, ?_⟩
      rw [if_pos (by rcases h.1 with h | h <;> simp [h])]
      exact ⟨h2, h1⟩
  obtain ⟨encs, henc1, henc2⟩ := henc
  let l : Params := base ++ [(kp, vp)] ++ (if encs = [] then [] else [(lit "Enc", encs)]) ++ [(lit "tls", boolStr r.tls)]
  have hgen : genUrlWithSecret r = (generateUrl { hostName := r.hostName, port := P, params := fill l }).map some := by
    unfold genUrlWithSecret
    rw [if_neg (by simp [hr.noError])]
    simp only [bind, Except.bind]
    rw [hbase, hser]
    simp only
    split at henc2
    · rename_i ht
      obtain ⟨hne, hsafe⟩ := henc2
      simp only [if_pos ht, hsafe, pure, Except.pure]
      have : l = (base ++ [(kp, vp)] ++ [(lit "Enc", encs)]) ++ [(lit "tls", boolStr r.tls)] := by
        simp only [l, if_neg hne]
      rw [this, fill_snoc (base ++ [(kp, vp)] ++ [(lit "Enc", encs)]), fill_snoc (base ++ [(kp, vp)])]
      generalize generateUrl _ = x
      cases x <;> rfl
    · rename_i ht
      simp only [if_neg ht, pure, Except.pure]
      have : l = (base ++ [(kp, vp)]) ++ [(lit "tls", boolStr r.tls)] := by
        simp only [l, if_pos henc2, List.append_nil]
      rw [this, fill_snoc (base ++ [(kp, vp)])]
      generalize generateUrl _ = x
      cases x <;> rfl
  have hkeys : ∀ x ∈ l, x.1 ∈ reqKeys := by
    intro x hx
    have hkp' : kp ∈ reqKeys := by rcases hkp with h | h <;> rw [h.1] <;> decide +kernel
    simp only [l, base, List.mem_append, List.mem_cons, List.not_mem_nil, or_false] at hx
    rcases hx with (((h | h) | h) | h) | h
    · rcases h with rfl | rfl | rfl | rfl | rfl <;> simp [reqKeys]
    · split at h
      · simp at h; subst h; simp [reqKeys]
      · simp at h
    · subst h; exact hkp'
    · split at h
      · simp at h
      · simp at h; subst h; simp [reqKeys]
    · subst h; simp [reqKeys]
  obtain ⟨url, hu1, hu2⟩ := C37_url_roundtrip { hostName := r.hostName, port := P, params := fill l } hr.host hP
    (fill_ok l) (fun x hx => reqKeys_ok _ (fill_keys l _ hkeys x hx))
  refine ⟨url, by rw [hgen, hu1]; rfl, ?_⟩
  have hget : ∀ k, Params.get k ((fill l).filter (·.2 ≠ [])) = (fill l).get k := fun k => Params.get_filter k (fill_ok l)
  have hE : ∀ d, lastVal (lit "Enc") (if encs = [] then [] else [(lit "Enc", encs)]) d = if encs = [] then d else encs := by
    intro d; split <;> simp [lastVal]
  have hE' : ∀ k d, k ≠ lit "Enc" → lastVal k (if encs = [] then [] else [(lit "Enc", encs)]) d = d := by
    intro k d h; split <;> simp [lastVal, h]
  have hD : ∀ d, lastVal (lit "dr") (if r.dr = true then [(lit "dr", boolStr r.dr)] else []) d =
      if r.dr = true then boolStr r.dr else d := by
    intro d; split <;> simp [lastVal]
  have hD' : ∀ k d, k ≠ lit "dr" → lastVal k (if r.dr = true then [(lit "dr", boolStr r.dr)] else []) d = d := by
    intro k d h; split <;> simp [lastVal, h]
  have hone : ∀ k k' v d, lastVal k [(k', v)] d = if k = k' then v else d := fun _ _ _ _ => rfl
  have hfive : ∀ k k1 k2 k3 k4 k5 v1 v2 v3 v4 v5 d, lastVal k [(k1, v1), (k2, v2), (k3, v3), (k4, v4), (k5, v5)] d =
      if k = k5 then v5 else if k = k4 then v4 else if k = k3 then v3 else if k = k2 then v2 else if k = k1 then v1 else d :=
    fun _ _ _ _ _ _ _ _ _ _ _ _ => rfl
  have hkp2 : kp = lit "ports" ∨ kp = lit "num_ports" := by rcases hkp with h | h; exact Or.inl h.1; exact Or.inr h.1
  have hval : ∀ k, (fill l).get k = if k = lit "tls" then boolStr r.tls else if k = lit "Enc" then encs
      else if k = kp then vp else if k = lit "dr" then (if r.dr = true then boolStr r.dr else [])
      else if k = lit "iv_change_int" then intStr r.ivChange else if k = lit "recpv" then intStr r.protocolVersion
      else if k = lit "dstid" then r.destIdentifier else if k = lit "ns" then r.wdtNamespace
      else if k = lit "id" then r.transferId else [] := by
    intro k
    rw [fill_get]
    simp only [l, base, lastVal_append, hone, hfive]
    by_cases h1 : k = lit "tls"
    · simp only [if_pos h1]
    simp only [if_neg h1]
    by_cases h2 : k = lit "Enc"
    · subst h2
      rw [hE, if_pos rfl]
      split
      · rename_i he
        have hk : lit "Enc" ≠ kp := by rcases hkp2 with h | h <;> rw [h] <;> decide +kernel
        rw [if_neg hk, hD' _ _ (by decide +kernel), if_neg (by decide +kernel), if_neg (by decide +kernel),
          if_neg (by decide +kernel), if_neg (by decide +kernel), if_neg (by decide +kernel), he]
      · rfl
    simp only [if_neg h2, hE' k _ h2]
    by_cases h3 : k = kp
    · simp only [if_pos h3]
    simp only [if_neg h3]
    by_cases h4 : k = lit "dr"
    · subst h4
      rw [hD, if_pos rfl]
      split
      · rfl
      · rw [if_neg (by decide +kernel), if_neg (by decide +kernel), if_neg (by decide +kernel),
          if_neg (by decide +kernel), if_neg (by decide +kernel)]
    simp only [if_neg h4, hD' k _ h4]
  have hn : ∀ k, k ≠ lit "ports" → k ≠ lit "num_ports" → k ≠ kp := by
    intro k h1 h2; rcases hkp2 with h | h <;> rw [h] <;> assumption
  apply parseReq_spec pv url _ r encs hu2 rfl rfl ?_ ?_ ?_ ?_ ?_ henc1 ?_ ?_ ?_ ?_ hr ?_
  · simp only [hget]
    rw [hval, if_neg (by decide +kernel), if_neg (by decide +kernel), if_neg (hn _ (by decide +kernel) (by decide +kernel)),
      if_neg (by decide +kernel), if_neg (by decide +kernel), if_neg (by decide +kernel), if_neg (by decide +kernel),
      if_neg (by decide +kernel), if_pos rfl]
  · simp only [hget]
    rw [hval, if_neg (by decide +kernel), if_neg (by decide +kernel), if_neg (hn _ (by decide +kernel) (by decide +kernel)),
      if_neg (by decide +kernel), if_neg (by decide +kernel), if_neg (by decide +kernel), if_neg (by decide +kernel),
      if_pos rfl]
  · simp only [hget]
    rw [hval, if_neg (by decide +kernel), if_neg (by decide +kernel), if_neg (hn _ (by decide +kernel) (by decide +kernel)),
      if_neg (by decide +kernel), if_neg (by decide +kernel), if_neg (by decide +kernel), if_pos rfl]
  · simp only [hget]
    rw [hval, if_neg (by decide +kernel), if_neg (by decide +kernel), if_neg (hn _ (by decide +kernel) (by decide +kernel)),
      if_neg (by decide +kernel), if_neg (by decide +kernel), if_neg (by decide +kernel), if_neg (by decide +kernel),
      if_neg (by decide +kernel), if_neg (by decide +kernel)]
  · simp only [hget]
    rw [hval, if_neg (by decide +kernel), if_pos rfl]
  · simp only [hget]
    rw [hval, if_pos rfl]
  · simp only [hget]
    rw [hval, if_neg (by decide +kernel), if_neg (by decide +kernel), if_neg (hn _ (by decide +kernel) (by decide +kernel)),
      if_pos rfl]
  · simp only [hget]
    rw [hval, if_neg (by decide +kernel), if_neg (by decide +kernel), if_neg (hn _ (by decide +kernel) (by decide +kernel)),
      if_neg (by decide +kernel), if_neg (by decide +kernel), if_pos rfl]
  · simp only [hget]
    rw [hval, if_neg (by decide +kernel), if_neg (by decide +kernel), if_neg (hn _ (by decide +kernel) (by decide +kernel)),
      if_neg (by decide +kernel), if_pos rfl]
  · simp only [hget]
    rcases hkp with ⟨rfl, rfl⟩ | ⟨rfl, p, n, h1, h2, h3, rfl, rfl⟩
    · left
      rw [hval, if_neg (by decide +kernel), if_neg (by decide +kernel), if_pos rfl]
    · right
      refine ⟨?_, p, n, h1, h2, h3, ?_, ?_⟩
      · rw [hval, if_neg (by decide +kernel), if_neg (by decide +kernel), if_neg (by decide +kernel),
          if_neg (by decide +kernel), if_neg (by decide +kernel), if_neg (by decide +kernel), if_neg (by decide +kernel),
          if_neg (by decide +kernel), if_neg (by decide +kernel)]
      · rw [if_pos (by omega)]
      · rw [hval, if_neg (by decide +kernel), if_neg (by decide +kernel), if_pos rfl]

/-- A request with everything in it. -/
def sampleReq : TransferReq :=
  { transferId := lit "a b&c", enc := { type := 2, data := [1, 254] }, protocolVersion := 31
    ports := [22356, 22357, 22358], hostName := lit "::1", destIdentifier := lit "d=1", wdtNamespace := lit "n?s"
    dr := true, tls := true, ivChange := 65536 }

example : genUrlWithSecret sampleReq = .ok (some (lit
    "wdt://[::1]:22356?Enc=2:01fe&dr=1&dstid=d%3d1&id=a%20b%26c&iv_change_int=65536&ns=n%3fs&num_ports=3&recpv=31&tls=1")) := by
  decide +kernel

example : ReqOK sampleReq := by
  refine ⟨rfl, by unfold HostOK; decide +kernel, ⟨by decide, ?_⟩, Or.inr (by decide), by decide, by decide⟩
  intro n h
  have := congrArg List.head? h
  cases n with
  | zero => simp [sampleReq] at this
  | succ n => simp [sampleReq, List.range_succ_eq_map] at this

/-- Ports with a gap. -/
example : ReqOK { sampleReq with ports := [0, 0, 5] } := by
  refine ⟨rfl, by unfold HostOK; decide +kernel, ⟨by decide, ?_⟩, Or.inr (by decide), by decide, by decide⟩
  intro n h
  match n with
  | 0 => simp at h
  | 1 => simp [List.range_succ_eq_map] at h
  | n + 2 => simp [List.range_succ_eq_map] at h

example : genUrlWithSecret { sampleReq with ports := [0, 0, 5] } = .ok (some (lit
    "wdt://[::1]?Enc=2:01fe&dr=1&dstid=d%3d1&id=a%20b%26c&iv_change_int=65536&ns=n%3fs&ports=0,0,5&recpv=31&tls=1")) := by
  decide +kernel

/-- **C37** does not hold for a request for one port chosen by the system, port 0: the
port is left out of the url, which is then refused. -/
theorem C37_violated_port_zero : ∃ r url, r.ports = [0] ∧ r.errorCode = eOK ∧ genUrlWithSecret r = .ok (some url) ∧
    parseReq 31 url = .ok { r with ports := [], errorCode := eINVALID_REQUEST } :=
  ⟨{ protocolVersion := 31, ports := [0], hostName := lit "h" }, lit "wdt://h?iv_change_int=0&num_ports=1&recpv=31&tls=0",
    rfl, rfl, by decide +kernel, by decide +kernel⟩

/-- **C37** does not hold for host names with a `?`. -/
theorem C37_violated_host : ∃ r url, r.hostName = lit "a?b" ∧ r.errorCode = eOK ∧ genUrlWithSecret r = .ok (some url) ∧
    ∃ r', parseReq 31 url = .ok r' ∧ r'.hostName = lit "a" :=
  ⟨{ protocolVersion := 31, ports := [1], hostName := lit "a?b" }, lit "wdt://a?b:1?iv_change_int=0&num_ports=1&recpv=31&tls=0",
    rfl, rfl, by decide +kernel,
    { protocolVersion := 31, ports := [], hostName := lit "a", errorCode := eINVALID_REQUEST },
    by decide +kernel, rfl⟩

/-- An `&` in front makes the parser take all parameters for one. -/
theorem C37_violated_leading_amp :
    (processUrl (lit "wdt://h?&num_ports=1&id=x")).params = [(lit "num_ports", lit "1&id=x")] ∧
    (processUrl (lit "wdt://h?&num_ports=1&id=x")).errorCode = eOK := by decide +kernel

end Wdt
