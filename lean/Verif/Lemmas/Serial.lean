import Verif.Model.Serial
/-
Helper lemmas about the serialization primitives.
-/
namespace Wdt

/-- Replace the bytes at `[p, p+bs.length)`. -/
def splice (buf : Bytes) (p : Nat) (bs : Bytes) : Bytes :=
  buf.take p ++ bs ++ buf.drop (p + bs.length)

/-- Two arrays of equal size that agree outside `[lo, hi)`. -/
def SameOutside (buf buf' : Bytes) (lo hi : Int) : Prop :=
  buf'.length = buf.length ∧ ∀ i : Nat, ((i : Int) < lo ∨ hi ≤ (i : Int)) → buf'[i]? = buf[i]?

/-- `e` with limit `max` behaves like "write exactly `bs` if it fits". -/
def Writes (max : Int) (e : Enc) (bs : Bytes) : Prop :=
  ∀ (buf : Bytes) (off : Int), 0 ≤ off → off ≤ max → max ≤ (buf.length : Int) →
    (off + bs.length ≤ max →
      e buf off = .ok (true, splice buf off.toNat bs, off + bs.length)) ∧
    (max < off + bs.length →
      ∃ buf' off', e buf off = .ok (false, buf', off') ∧ SameOutside buf buf' off max ∧
        off ≤ off' ∧ off' ≤ max)

theorem splice_length (buf : Bytes) (p : Nat) (bs : Bytes) (h : p + bs.length ≤ buf.length) :
    (splice buf p bs).length = buf.length := by
  simp [splice]; omega

theorem splice_nil (buf : Bytes) (p : Nat) : splice buf p [] = buf := by
  simp [splice]

theorem splice_getElem? (buf : Bytes) (p : Nat) (bs : Bytes) (h : p + bs.length ≤ buf.length)
    (i : Nat) : (splice buf p bs)[i]? =
      if i < p then buf[i]? else if i < p + bs.length then bs[i - p]? else buf[i]? := by
  unfold splice
  have h1 : (buf.take p).length = p := by simp; omega
  by_cases hi : i < p
  · simp only [hi, if_true]
    rw [List.append_assoc, List.getElem?_append_left (by omega)]
    simp [hi]
  · simp only [hi, if_false]
    by_cases hj : i < p + bs.length
    · simp only [hj, if_true]
      rw [List.getElem?_append_left (by simp; omega), List.getElem?_append_right (by omega), h1]
    · simp only [hj, if_false]
      rw [List.getElem?_append_right (by simp; omega)]
      simp only [List.length_append, h1, List.getElem?_drop]
      congr 1; omega

theorem splice_append (buf : Bytes) (p : Nat) (bs cs : Bytes)
    (h : p + bs.length + cs.length ≤ buf.length) :
    splice (splice buf p bs) (p + bs.length) cs = splice buf p (bs ++ cs) := by
  apply List.ext_getElem?
  intro i
  have hl := splice_length buf p bs (by omega)
  rw [splice_getElem? _ _ _ (by omega), splice_getElem? _ _ _ (by omega),
    splice_getElem? _ _ _ (by simp; omega)]
  simp only [List.length_append]
  by_cases h1 : i < p
  · simp [h1, show i < p + bs.length by omega]
  · by_cases h2 : i < p + bs.length
    · simp [h1, h2, show i < p + (bs.length + cs.length) by omega,
        List.getElem?_append_left (show i - p < bs.length by omega)]
    · by_cases h3 : i < p + bs.length + cs.length
      · simp [h1, h2, h3, show i < p + (bs.length + cs.length) by omega,
          List.getElem?_append_right (show bs.length ≤ i - p by omega)]
        congr 1; omega
      · simp [h1, h2, h3, show ¬ i < p + (bs.length + cs.length) by omega]

theorem sameOutside_refl (buf : Bytes) (lo hi : Int) : SameOutside buf buf lo hi :=
  ⟨rfl, fun _ _ => rfl⟩

theorem SameOutside.trans {a b c : Bytes} {lo mid hi : Int}
    (h1 : SameOutside a b lo hi) (h2 : SameOutside b c mid hi) (h : lo ≤ mid) :
    SameOutside a c lo hi := by
  refine ⟨h2.1.trans h1.1, fun i hi' => ?_⟩
  rw [h2.2 i (by omega), h1.2 i hi']

theorem splice_sameOutside (buf : Bytes) (off : Int) (bs : Bytes) (hi : Int) (h0 : 0 ≤ off)
    (h : off + bs.length ≤ hi) (hb : hi ≤ buf.length) :
    SameOutside buf (splice buf off.toNat bs) off hi := by
  refine ⟨splice_length _ _ _ (by omega), fun i hi' => ?_⟩
  rw [splice_getElem? _ _ _ (by omega)]
  by_cases h1 : i < off.toNat
  · simp [h1]
  · simp [h1, show ¬ i < off.toNat + bs.length by omega]

theorem set_eq_splice (buf : Bytes) (p : Nat) (b : UInt8) (h : p < buf.length) :
    buf.set p b = splice buf p [b] := by
  apply List.ext_getElem?
  intro i
  rw [splice_getElem? _ _ _ (by simp; omega)]
  simp only [List.getElem?_set, List.length_singleton]
  by_cases h1 : p = i
  · subst h1; simp [h]
  · simp only [h1, if_false]
    by_cases h2 : i < p
    · simp [h2]
    · simp [h2, show ¬ i < p + 1 by omega]

theorem storeByte_ok (buf : Bytes) (p : Int) (b : UInt8) (h0 : 0 ≤ p) (h : p < buf.length) :
    storeByte buf p b = .ok (splice buf p.toNat [b]) := by
  unfold storeByte
  rw [if_pos ⟨h0, h⟩, set_eq_splice _ _ _ (by omega)]

theorem storeBytes_ok (bs : Bytes) : ∀ (buf : Bytes) (p : Int), 0 ≤ p →
    p + bs.length ≤ buf.length → storeBytes buf p bs = .ok (splice buf p.toNat bs) := by
  intro buf p h0 h
  unfold storeBytes
  by_cases hb : bs = []
  · rw [if_pos hb, hb, splice_nil]
  · rw [if_neg hb, if_pos ⟨h0, h⟩]; rfl

/-! ### Combinators -/

theorem writes_skip (max : Int) : Writes max Enc.skip [] := by
  intro buf off h0 h1 h2
  refine ⟨fun _ => ?_, fun h => absurd h (by simp; omega)⟩
  simp [Enc.skip, splice_nil]

theorem Writes.and {max : Int} {e1 e2 : Enc} {b1 b2 : Bytes} (w1 : Writes max e1 b1)
    (w2 : Writes max e2 b2) : Writes max (e1.and e2) (b1 ++ b2) := by
  intro buf off h0 h1 h2
  have w := w1 buf off h0 h1 h2
  have hlen : ((b1 ++ b2).length : Int) = b1.length + b2.length := by simp
  by_cases hb : off + b1.length ≤ max
  · have hr := w.1 hb
    have hl := splice_length buf off.toNat b1 (by omega)
    have w' := w2 (splice buf off.toNat b1) (off + b1.length) (by omega) hb (by omega)
    constructor
    · intro h
      have := w'.1 (by omega)
      simp only [Enc.and, hr, this]
      congr 3
      · rw [← splice_append buf off.toNat b1 b2 (by omega)]
        congr 1; omega
      · omega
    · intro h
      obtain ⟨buf', off', he, hs, ha, hb'⟩ := w'.2 (by omega)
      refine ⟨buf', off', ?_, ?_, by omega, hb'⟩
      · simp only [Enc.and, hr, he]
      · exact (splice_sameOutside buf off b1 max h0 hb h2).trans hs (by omega)
  · constructor
    · intro h; omega
    · intro h
      obtain ⟨buf', off', he, hs, ha, hb'⟩ := w.2 (by omega)
      exact ⟨buf', off', by simp only [Enc.and, he], hs, ha, hb'⟩

theorem Writes.congr {max : Int} {e : Enc} {b1 b2 : Bytes} (w : Writes max e b1) (h : b1 = b2) :
    Writes max e b2 := h ▸ w

/-! ### Primitive encoders -/

theorem varBytesLoop_length_pos (fuel v : Nat) : 1 ≤ (varBytesLoop fuel v).length := by
  cases fuel with
  | zero => simp [varBytesLoop]
  | succ n => unfold varBytesLoop; split <;> simp

theorem varBytesLoop_length_le (fuel : Nat) : ∀ v, (varBytesLoop fuel v).length ≤ fuel + 1 := by
  induction fuel with
  | zero => intro v; simp [varBytesLoop]
  | succ n ih => intro v; unfold varBytesLoop; split <;> simp; exact ih _

theorem encVarLoop_spec (max : Nat) (fuel : Nat) : ∀ (v : Nat) (buf : Bytes) (p : Int), 0 ≤ p →
    (max : Int) ≤ buf.length →
    (p + (varBytesLoop fuel v).length ≤ max →
      encVarLoop max fuel buf p v =
        .ok (true, splice buf p.toNat (varBytesLoop fuel v), p + (varBytesLoop fuel v).length)) ∧
    ((max : Int) < p + (varBytesLoop fuel v).length →
      ∃ buf' p', encVarLoop max fuel buf p v = .ok (false, buf', p') ∧
        SameOutside buf buf' p max ∧ (p ≥ max → buf' = buf)) := by
  have base : ∀ (v : Nat) (buf : Bytes) (p : Int), 0 ≤ p → (max : Int) ≤ buf.length →
      (p + 1 ≤ max →
        (if p ≥ (max : Int) then .ok (false, buf, p)
          else match storeByte buf p (UInt8.ofNat (v % 256)) with
            | .error f => .error f
            | .ok buf' => .ok (true, buf', p + 1)) =
          (.ok (true, splice buf p.toNat [UInt8.ofNat (v % 256)], p + 1) : Except Fault _)) ∧
      ((max : Int) < p + 1 →
        (if p ≥ (max : Int) then .ok (false, buf, p)
          else match storeByte buf p (UInt8.ofNat (v % 256)) with
            | .error f => .error f
            | .ok buf' => .ok (true, buf', p + 1)) = (.ok (false, buf, p) : Except Fault _)) := by
    intro v buf p h0 hm
    refine ⟨fun h => ?_, fun h => ?_⟩
    · rw [if_neg (by omega), storeByte_ok buf p _ h0 (by omega)]
    · rw [if_pos (by omega)]
  induction fuel with
  | zero =>
    intro v buf p h0 hm
    have := base v buf p h0 hm
    simp only [encVarLoop, varBytesLoop, List.length_singleton]
    exact ⟨fun h => this.1 h, fun h => ⟨buf, p, this.2 h, sameOutside_refl _ _ _, fun _ => rfl⟩⟩
  | succ n ih =>
    intro v buf p h0 hm
    by_cases hv : v ≥ 128
    · simp only [encVarLoop, varBytesLoop, hv, if_true, List.length_cons]
      have hpos := varBytesLoop_length_pos n (v >>> 7)
      by_cases hp : p ≥ max
      · refine ⟨fun h => absurd h (by omega), fun h => ?_⟩
        exact ⟨buf, p, by rw [if_pos hp], sameOutside_refl _ _ _, fun _ => rfl⟩
      · rw [if_neg hp, storeByte_ok buf p _ h0 (by omega)]
        generalize hb : UInt8.ofNat (0x80 ||| v &&& 0x7f) = b
        have hl := splice_length buf p.toNat [b] (by simp; omega)
        have ih' := ih (v >>> 7) (splice buf p.toNat [b]) (p + 1) (by omega) (by omega)
        refine ⟨fun h => ?_, fun h => ?_⟩
        · simp only
          rw [ih'.1 (by omega)]
          have e1 : splice (splice buf p.toNat [b]) (p + 1).toNat (varBytesLoop n (v >>> 7)) =
              splice buf p.toNat (b :: varBytesLoop n (v >>> 7)) := by
            have := splice_append buf p.toNat [b] (varBytesLoop n (v >>> 7)) (by simp; omega)
            rw [show (p + 1).toNat = p.toNat + [b].length by simp; omega, this]; rfl
          rw [e1]
          congr 3
          omega
        · obtain ⟨buf', p', he, hs, _⟩ := ih'.2 (by omega)
          refine ⟨buf', p', he, ?_, fun h' => absurd h' hp⟩
          exact (splice_sameOutside buf p [b] max h0 (by simp; omega) hm).trans hs (by omega)
    · simp only [encVarLoop, varBytesLoop, hv, if_false, List.length_singleton]
      have := base v buf p h0 hm
      exact ⟨fun h => this.1 h, fun h => ⟨buf, p, this.2 h, sameOutside_refl _ _ _, fun _ => rfl⟩⟩

theorem toU64_of_range (max : Int) (h0 : 0 ≤ max) (h : max ≤ int64Max) : (toU64 max : Int) = max := by
  unfold toU64 int64Max at *
  omega

theorem writes_encodeVarU64 (max : Nat) (v : Nat) :
    Writes max (encodeVarU64 max v) (encodeVarU64Str v) := by
  intro buf off h0 h1 h2
  have := encVarLoop_spec max 8 v buf off h0 h2
  unfold encodeVarU64 encodeVarU64Str
  rw [if_neg (by omega)]
  refine ⟨fun h => ?_, fun h => ?_⟩
  · rw [this.1 h]
  · obtain ⟨buf', p', he, hs, _⟩ := this.2 h
    exact ⟨buf', off, by rw [he], hs, by omega, h1⟩

theorem writes_encodeVarU64' (max : Int) (hm0 : 0 ≤ max) (hm : max ≤ int64Max) (v : Nat) :
    Writes max (encodeVarU64 (toU64 max) v) (encodeVarU64Str v) := by
  have := writes_encodeVarU64 (toU64 max) v
  rwa [toU64_of_range max hm0 hm] at this

theorem writes_encodeVarI64C (max : Int) (hm0 : 0 ≤ max) (hm : max ≤ int64Max) (v : Int)
    (hv : 0 ≤ v) : Writes max (encodeVarI64C (toU64 max) v) (encodeVarU64Str v.toNat) := by
  intro buf off h0 h1 h2
  have := writes_encodeVarU64' max hm0 hm v.toNat buf off h0 h1 h2
  unfold encodeVarI64C
  rw [if_neg (by omega)]
  exact this

theorem leBytes_length (n : Nat) : ∀ v, (leBytes n v).length = n := by
  induction n with
  | zero => intro v; rfl
  | succ n ih => intro v; simp [leBytes, ih]

theorem writes_encodeIntFixed (n : Nat) (max : Int) (v : Int) :
    Writes max (encodeIntFixed n max v) (leBytes n v) := by
  intro buf off h0 h1 h2
  unfold encodeIntFixed
  rw [leBytes_length]
  refine ⟨fun h => ?_, fun h => ?_⟩
  · rw [if_neg (by omega), storeBytes_ok _ _ _ h0 (by rw [leBytes_length]; omega)]
  · exact ⟨buf, off, by rw [if_pos (by omega)], sameOutside_refl _ _ _, by omega, h1⟩

theorem writes_encodeByteChecked (max : Int) (b : UInt8) :
    Writes max (encodeByteChecked max b) [b] := by
  intro buf off h0 h1 h2
  unfold encodeByteChecked
  simp only [List.length_singleton]
  refine ⟨fun h => ?_, fun h => ?_⟩
  · rw [if_neg (by omega), storeByte_ok _ _ _ h0 (by omega)]; rfl
  · exact ⟨buf, off, by rw [if_pos (by omega)], sameOutside_refl _ _ _, by omega, h1⟩

/-- The bytes of an encoded string. -/
def strBytes (s : Bytes) : Bytes := encodeVarU64Str s.length ++ s

theorem writes_encodeString (max : Int) (hm0 : 0 ≤ max) (hm : max ≤ int64Max) (s : Bytes) :
    Writes max (encodeString max s) (strBytes s) := by
  have h2 : Writes max (fun buf off => if off + s.length > max then .ok (false, buf, off)
      else match storeBytes buf off s with
        | .error f => .error f
        | .ok buf'' => .ok (true, buf'', off + s.length)) s := by
    intro buf off h0 h1 h2
    refine ⟨fun h => ?_, fun h => ?_⟩
    · simp only [if_neg (show ¬ off + s.length > max by omega),
        storeBytes_ok _ _ _ h0 (show off + s.length ≤ buf.length by omega)]
    · exact ⟨buf, off, by simp only [if_pos (show off + s.length > max by omega)],
        sameOutside_refl _ _ _, by omega, h1⟩
  have := (writes_encodeVarU64' max hm0 hm s.length).and h2
  exact this

/-! ### Decoders -/

/-- `d` reads `bs` as `a` whatever follows. -/
def Parses {α : Type} (d : Dec α) (bs : Bytes) (a : α) : Prop :=
  ∀ rest, d (bs ++ rest) = (some a, rest)

/-- `d` leaves a suffix of its input. -/
def Suffixy {α : Type} (d : Dec α) : Prop :=
  ∀ br, ∃ pre, br = pre ++ (d br).2

theorem Parses.bind {α β : Type} {d : Dec α} {f : α → Dec β} {b1 b2 : Bytes} {a : α} {b : β}
    (h1 : Parses d b1 a) (h2 : Parses (f a) b2 b) : Parses (d.bind f) (b1 ++ b2) b := by
  intro rest
  simp only [Dec.bind, List.append_assoc, h1 (b2 ++ rest), h2 rest]

theorem parses_pure {α : Type} (a : α) : Parses (Dec.pure a) [] a := fun _ => rfl

theorem Suffixy.bind {α β : Type} {d : Dec α} {f : α → Dec β} (h1 : Suffixy d)
    (h2 : ∀ a, Suffixy (f a)) : Suffixy (d.bind f) := by
  intro br
  obtain ⟨p, hp⟩ := h1 br
  unfold Dec.bind
  rcases hd : d br with ⟨_ | a, br'⟩
  · rw [hd] at hp; exact ⟨p, hp⟩
  · rw [hd] at hp
    simp only at hp ⊢
    obtain ⟨q, hq⟩ := h2 a br'
    exact ⟨p ++ q, by rw [List.append_assoc, ← hq]; exact hp⟩

theorem suffixy_pure {α : Type} (a : α) : Suffixy (Dec.pure a) := fun _ => ⟨[], rfl⟩
theorem suffixy_fail {α : Type} : Suffixy (Dec.fail (α := α)) := fun _ => ⟨[], rfl⟩

theorem Suffixy.ite {α : Type} {c : Prop} [Decidable c] {d1 d2 : Dec α} (h1 : Suffixy d1)
    (h2 : Suffixy d2) : Suffixy (if c then d1 else d2) := by
  split <;> assumption

/-! #### varint decoding -/

theorem and_7f (v : Nat) : v &&& 0x7f = v % 128 := by
  have := Nat.and_two_pow_sub_one_eq_mod v 7
  simpa using this

theorem or_80 (x : Nat) (h : x < 128) : 0x80 ||| x = 128 + x := by
  have := Nat.two_pow_add_eq_or_of_lt (i := 7) (b := x) (by simpa using h) 1
  simpa using this.symm

theorem cont_byte_toNat (v : Nat) : (UInt8.ofNat (0x80 ||| (v &&& 0x7f))).toNat = 128 + v % 128 := by
  rw [and_7f, or_80 _ (Nat.mod_lt _ (by omega))]
  simp [UInt8.toNat_ofNat']; omega

theorem and_80_ne (b : Nat) (hb : b < 256) : (b &&& 0x80 ≠ 0) ↔ 128 ≤ b := by
  have h : ∀ b : Fin 256, (b.val &&& 0x80 ≠ 0) ↔ 128 ≤ b.val := by decide +kernel
  exact h ⟨b, hb⟩

theorem or_shift (val x shift : Nat) (h : val < 2 ^ shift) :
    val ||| (x <<< shift) = val + x * 2 ^ shift := by
  rw [Nat.or_comm, ← Nat.shiftLeft_add_eq_or_of_lt h, Nat.shiftLeft_eq]; omega

/-- Decoding what the encoder loop produced, starting in the middle. -/
theorem decVarLoop_varBytesLoop (fuel : Nat) : ∀ (v shift val : Nat) (rest : Bytes),
    shift + 7 * fuel = 56 → val < 2 ^ shift → val + v * 2 ^ shift < 2 ^ 64 →
    decVarLoop fuel shift val (varBytesLoop fuel v ++ rest) = some (val + v * 2 ^ shift, rest) := by
  induction fuel with
  | zero =>
    intro v shift val rest hs hval hv
    have hs' : shift = 56 := by omega
    subst hs'
    have hv256 : v < 256 := by
      have : v * 2 ^ 56 < 2 ^ 64 := by omega
      omega
    simp only [varBytesLoop, List.singleton_append, decVarLoop]
    rw [or_shift _ _ _ hval]
    congr 2
    have hn : (UInt8.ofNat (v % 256)).toNat = v := by simp [UInt8.toNat_ofNat']; omega
    unfold sextByte
    rw [hn]
    split <;> omega
  | succ n ih =>
    intro v shift val rest hs hval hv
    by_cases h : v ≥ 128
    · simp only [varBytesLoop, h, if_true, List.cons_append, decVarLoop]
      have hb := cont_byte_toNat v
      rw [hb, if_pos ((and_80_ne _ (by omega)).2 (by omega))]
      have h7 : (128 + v % 128) &&& 0x7f = v % 128 := by rw [and_7f]; omega
      rw [h7, or_shift _ _ _ hval]
      have hq : v >>> 7 = v / 128 := by rw [Nat.shiftRight_eq_div_pow]
      have hpow : 2 ^ (shift + 7) = 128 * 2 ^ shift := by rw [Nat.pow_add]; omega
      have hdm : v % 128 * 2 ^ shift + v / 128 * (128 * 2 ^ shift) = v * 2 ^ shift := by
        rw [← Nat.mul_assoc, ← Nat.add_mul]
        congr 1; omega
      have hlt : val + v % 128 * 2 ^ shift < 2 ^ (shift + 7) := by
        have : v % 128 * 2 ^ shift ≤ 127 * 2 ^ shift := Nat.mul_le_mul_right _ (by omega)
        omega
      have hmod : (val + v % 128 * 2 ^ shift) % 18446744073709551616 = val + v % 128 * 2 ^ shift := by
        apply Nat.mod_eq_of_lt
        have : v / 128 * (128 * 2 ^ shift) ≥ 0 := Nat.zero_le _
        omega
      rw [hmod, ih _ _ _ _ (by omega) hlt (by rw [hq, hpow]; omega), hq, hpow]
      congr 2; omega
    · simp only [varBytesLoop, h, if_false, List.singleton_append, decVarLoop]
      have hn : (UInt8.ofNat (v % 256)).toNat = v := by simp [UInt8.toNat_ofNat']; omega
      rw [hn, if_neg (by rw [and_80_ne _ (by omega)]; omega)]
      have : sextByte (UInt8.ofNat (v % 256)) = v := by unfold sextByte; rw [hn, if_pos (by omega)]
      rw [this, or_shift _ _ _ hval, Nat.mod_eq_of_lt (by omega)]

theorem parses_decodeUInt64 (v : Nat) (h : v < 2 ^ 64) :
    Parses decodeUInt64 (encodeVarU64Str v) v := by
  intro rest
  unfold decodeUInt64 encodeVarU64Str
  rw [decVarLoop_varBytesLoop 8 v 0 0 rest (by omega) (by omega) (by omega)]
  simp

theorem decVarLoop_suffix (fuel : Nat) : ∀ (shift val : Nat) (br : Bytes) (v : Nat) (rest : Bytes),
    decVarLoop fuel shift val br = some (v, rest) →
      v < 2 ^ 64 ∧ ∃ pre, br = pre ++ rest ∧ 1 ≤ pre.length ∧ pre.length ≤ fuel + 1 := by
  induction fuel with
  | zero =>
    intro shift val br v rest h
    cases br with
    | nil => simp [decVarLoop] at h
    | cons b br =>
      simp only [decVarLoop, Option.some.injEq, Prod.mk.injEq] at h
      refine ⟨?_, [b], by simp [h.2], by simp, by simp⟩
      rw [← h.1]; exact Nat.mod_lt _ (by omega)
  | succ n ih =>
    intro shift val br v rest h
    cases br with
    | nil => simp [decVarLoop] at h
    | cons b br =>
      simp only [decVarLoop] at h
      split at h
      · obtain ⟨h1, pre, h2, h3, h4⟩ := ih _ _ _ _ _ h
        exact ⟨h1, b :: pre, by simp [h2], by simp, by simp; omega⟩
      · simp only [Option.some.injEq, Prod.mk.injEq] at h
        refine ⟨?_, [b], by simp [h.2], by simp, by simp⟩
        rw [← h.1]; exact Nat.mod_lt _ (by omega)

theorem decodeUInt64_some {br : Bytes} {v : Nat} {rest : Bytes}
    (h : decodeUInt64 br = (some v, rest)) :
    v < 2 ^ 64 ∧ ∃ pre, br = pre ++ rest ∧ 1 ≤ pre.length ∧ pre.length ≤ 9 := by
  unfold decodeUInt64 at h
  rcases hd : decVarLoop 8 0 0 br with _ | ⟨v', r'⟩
  · rw [hd] at h; simp at h
  · rw [hd] at h
    simp only [Prod.mk.injEq, Option.some.injEq] at h
    have := decVarLoop_suffix 8 0 0 br v' r' hd
    rw [← h.1, ← h.2]; exact this

theorem decodeUInt64_none {br rest : Bytes} (h : decodeUInt64 br = (none, rest)) : rest = br := by
  unfold decodeUInt64 at h
  rcases hd : decVarLoop 8 0 0 br with _ | ⟨v', r'⟩
  · rw [hd] at h; simp at h; exact h.symm
  · rw [hd] at h; simp at h

theorem suffixy_decodeUInt64 : Suffixy decodeUInt64 := by
  intro br
  rcases hd : decodeUInt64 br with ⟨_ | v, r⟩
  · exact ⟨[], by simp [decodeUInt64_none hd]⟩
  · obtain ⟨_, pre, h, _⟩ := decodeUInt64_some hd
    exact ⟨pre, h⟩

/-! #### zigzag -/

theorem encodeZigZag_toNat (x : BitVec 64) :
    (encodeZigZag x).toNat = if 0 ≤ x.toInt then 2 * x.toInt.toNat else (-2 * x.toInt - 1).toNat := by
  have hx := x.isLt
  have hti := BitVec.toInt_eq_toNat_cond x
  by_cases h : 2 * x.toNat < 2 ^ 64
  · rw [if_pos h] at hti
    have hm : x.msb = false := by
      rw [BitVec.msb_eq_decide]; simp; omega
    have hs : x.sshiftRight 63 = 0#64 := by
      rw [BitVec.sshiftRight_eq_of_msb_false hm]
      apply BitVec.eq_of_toNat_eq
      simp [BitVec.toNat_ushiftRight, Nat.shiftRight_eq_div_pow]; omega
    unfold encodeZigZag
    rw [hs, hti]
    simp [Nat.shiftLeft_eq]
    omega
  · rw [if_neg h] at hti
    have hm : x.msb = true := by
      rw [BitVec.msb_eq_decide]; simp; omega
    have hs : x.sshiftRight 63 = BitVec.allOnes 64 := by
      rw [BitVec.sshiftRight_eq_of_msb_true hm]
      apply BitVec.eq_of_toNat_eq
      simp [BitVec.toNat_ushiftRight, Nat.shiftRight_eq_div_pow]; omega
    unfold encodeZigZag
    rw [hs, BitVec.xor_allOnes, hti, if_neg (by omega)]
    simp [Nat.shiftLeft_eq]
    omega

theorem decodeZigZag_toInt (n : Nat) (h : n < 2 ^ 64) :
    (decodeZigZag (BitVec.ofNat 64 n)).toInt =
      if n % 2 = 0 then ((n / 2 : Nat) : Int) else -((n / 2 : Nat) : Int) - 1 := by
  have hand : (BitVec.ofNat 64 n &&& 1#64).toNat = n % 2 := by
    simp [Nat.and_one_is_mod]
  have hshift : (BitVec.ofNat 64 n >>> 1).toNat = n / 2 := by
    simp [Nat.shiftRight_eq_div_pow]; omega
  unfold decodeZigZag
  by_cases h2 : n % 2 = 0
  · have : BitVec.ofNat 64 n &&& 1#64 = 0#64 := BitVec.eq_of_toNat_eq (by rw [hand, h2]; rfl)
    rw [this, if_pos h2]
    rw [BitVec.toInt_eq_toNat_cond]
    simp only [BitVec.neg_zero, BitVec.xor_zero, hshift]
    split <;> omega
  · have : BitVec.ofNat 64 n &&& 1#64 = 1#64 :=
      BitVec.eq_of_toNat_eq (by rw [hand]; simp; omega)
    rw [this, if_neg h2]
    have h1 : -1#64 = BitVec.allOnes 64 := by decide
    rw [h1, BitVec.xor_allOnes, BitVec.toInt_eq_toNat_cond, BitVec.toNat_not, hshift]
    split <;> omega

/-- Zigzag of an `int64_t`, arithmetically. -/
def zigzag (i : Int) : Nat := if 0 ≤ i then 2 * i.toNat else (-2 * i - 1).toNat

theorem encodeZigZag_ofInt (i : Int) (h1 : -2 ^ 63 ≤ i) (h2 : i < 2 ^ 63) :
    (encodeZigZag (BitVec.ofInt 64 i)).toNat = zigzag i := by
  rw [encodeZigZag_toNat]
  have : (BitVec.ofInt 64 i).toInt = i := by
    rw [BitVec.toInt_ofInt]
    rw [Int.bmod_eq_of_le] <;> omega
  rw [this]; rfl

theorem writes_encodeVarI64 (max : Int) (hm0 : 0 ≤ max) (hm : max ≤ int64Max) (v : Int)
    (h1 : -2 ^ 63 ≤ v) (h2 : v < 2 ^ 63) :
    Writes max (encodeVarI64 (toU64 max) v) (encodeVarU64Str (zigzag v)) := by
  unfold encodeVarI64
  rw [encodeZigZag_ofInt v h1 h2]
  exact writes_encodeVarU64' max hm0 hm _

theorem parses_decodeInt64 (i : Int) (h1 : -2 ^ 63 ≤ i) (h2 : i < 2 ^ 63) :
    Parses decodeInt64 (encodeVarU64Str (zigzag i)) i := by
  intro rest
  have hz : zigzag i < 2 ^ 64 := by unfold zigzag; split <;> omega
  unfold decodeInt64
  rw [parses_decodeUInt64 _ hz rest]
  simp only [Prod.mk.injEq, Option.some.injEq, and_true]
  rw [decodeZigZag_toInt _ hz]
  unfold zigzag; split <;> split <;> omega

theorem suffixy_decodeInt64 : Suffixy decodeInt64 := by
  intro br
  obtain ⟨pre, h⟩ := suffixy_decodeUInt64 br
  refine ⟨pre, ?_⟩
  unfold decodeInt64
  rcases hd : decodeUInt64 br with ⟨_ | v, r⟩ <;> rw [hd] at h <;> exact h

theorem parses_decodeInt32 (i : Int) (h1 : int32Min ≤ i) (h2 : i ≤ int32Max) :
    Parses decodeInt32 (encodeVarU64Str (zigzag i)) i := by
  intro rest
  unfold int32Min int32Max at *
  unfold decodeInt32
  rw [parses_decodeInt64 i (by omega) (by omega) rest]
  simp only
  rw [if_neg (by simp only [int32Min, int32Max]; omega)]

theorem suffixy_decodeInt32 : Suffixy decodeInt32 := by
  intro br
  obtain ⟨pre, h⟩ := suffixy_decodeInt64 br
  unfold decodeInt32
  rcases hd : decodeInt64 br with ⟨_ | v, r⟩ <;> rw [hd] at h
  · exact ⟨pre, h⟩
  · simp only
    split
    · exact ⟨[], rfl⟩
    · exact ⟨pre, h⟩

theorem parses_decodeInt64C (i : Int) (h1 : 0 ≤ i) (h2 : i ≤ int64Max) :
    Parses decodeInt64C (encodeVarU64Str i.toNat) i := by
  intro rest
  unfold int64Max at h2
  unfold decodeInt64C
  rw [parses_decodeUInt64 i.toNat (by omega) rest]
  simp only
  rw [if_neg (by simp only [int64Max]; omega)]
  simp only [Prod.mk.injEq, Option.some.injEq, and_true]; omega

theorem suffixy_decodeInt64C : Suffixy decodeInt64C := by
  intro br
  obtain ⟨pre, h⟩ := suffixy_decodeUInt64 br
  unfold decodeInt64C
  rcases hd : decodeUInt64 br with ⟨_ | v, r⟩ <;> rw [hd] at h
  · exact ⟨pre, h⟩
  · simp only
    split <;> exact ⟨pre, h⟩

theorem decodeInt64C_some {br : Bytes} {v : Int} {rest : Bytes}
    (h : decodeInt64C br = (some v, rest)) : 0 ≤ v ∧ v ≤ int64Max := by
  unfold decodeInt64C at h
  rcases hd : decodeUInt64 br with ⟨_ | u, r⟩ <;> rw [hd] at h
  · simp at h
  · simp only at h
    split at h
    · simp at h
    · simp only [Prod.mk.injEq, Option.some.injEq] at h
      omega

theorem decodeInt64C_some_shorter {br : Bytes} {v : Int} {rest : Bytes}
    (h : decodeInt64C br = (some v, rest)) : rest.length < br.length := by
  unfold decodeInt64C at h
  rcases hd : decodeUInt64 br with ⟨_ | u, r⟩ <;> rw [hd] at h
  · simp at h
  · simp only at h
    obtain ⟨_, pre, hb, hl, _⟩ := decodeUInt64_some hd
    split at h
    · simp at h
    · simp only [Prod.mk.injEq, Option.some.injEq] at h
      rw [hb, ← h.2, List.length_append]; omega

theorem parses_decodeInt32C (i : Int) (h1 : 0 ≤ i) (h2 : i ≤ int32Max) :
    Parses decodeInt32C (encodeVarU64Str i.toNat) i := by
  intro rest
  unfold decodeInt32C
  rw [parses_decodeInt64C i h1 (by unfold int32Max int64Max at *; omega) rest]
  simp only
  rw [if_neg (by omega)]

theorem suffixy_decodeInt32C : Suffixy decodeInt32C := by
  intro br
  obtain ⟨pre, h⟩ := suffixy_decodeInt64C br
  unfold decodeInt32C
  rcases hd : decodeInt64C br with ⟨_ | v, r⟩ <;> rw [hd] at h
  · exact ⟨pre, h⟩
  · simp only
    split
    · exact ⟨[], rfl⟩
    · exact ⟨pre, h⟩

theorem decodeInt32C_some {br : Bytes} {v : Int} {rest : Bytes}
    (h : decodeInt32C br = (some v, rest)) : 0 ≤ v ∧ v ≤ int32Max := by
  unfold decodeInt32C at h
  rcases hd : decodeInt64C br with ⟨_ | u, r⟩ <;> rw [hd] at h
  · simp at h
  · simp only at h
    split at h
    · simp at h
    · simp only [Prod.mk.injEq, Option.some.injEq] at h
      omega

/-! #### fixed width and strings -/

theorem leNat_leBytes (n : Nat) : ∀ (v : Int), 0 ≤ v → v < 256 ^ n → (leNat (leBytes n v) : Int) = v := by
  induction n with
  | zero => intro v h0 h; simp [leBytes, leNat] at *; omega
  | succ n ih =>
    intro v h0 h
    have h' : v / 256 < 256 ^ n := by
      rw [Int.pow_succ] at h
      omega
    have := ih (v / 256) (by omega) h'
    simp only [leBytes, leNat]
    have hn : (UInt8.ofNat (v % 256).toNat).toNat = (v % 256).toNat := by
      simp [UInt8.toNat_ofNat']; omega
    rw [hn]; omega

theorem leNat_lt (bs : Bytes) : leNat bs < 256 ^ bs.length := by
  induction bs with
  | nil => simp [leNat]
  | cons b bs ih =>
    have := b.toNat_lt
    simp only [leNat, List.length_cons, Nat.pow_succ]
    omega

theorem parses_decodeIntFixed (n : Nat) (v : Int) (h0 : 0 ≤ v) (h : 2 * v < 256 ^ n) :
    Parses (decodeIntFixed n) (leBytes n v) v := by
  intro rest
  have hl := leBytes_length n v
  unfold decodeIntFixed
  rw [if_neg (by simp [hl])]
  have ht : (leBytes n v ++ rest).take n = leBytes n v := by
    rw [List.take_append_of_le_length (by omega), List.take_of_length_le (by omega)]
  have hd : (leBytes n v ++ rest).drop n = rest := by
    rw [List.drop_append_of_le_length (by omega), List.drop_of_length_le (by omega)]; simp
  have hv := leNat_leBytes n v h0 (by omega)
  have hp : ((256 ^ n : Nat) : Int) = 256 ^ n := by simp
  simp only [ht, hd]
  rw [if_neg (by omega)]
  simp only [Prod.mk.injEq, Option.some.injEq, and_true]; exact hv

theorem suffixy_decodeIntFixed (n : Nat) : Suffixy (decodeIntFixed n) := by
  intro br
  unfold decodeIntFixed
  split
  · exact ⟨[], rfl⟩
  · simp only
    split <;> exact ⟨br.take n, by simp⟩

theorem decodeIntFixed_some {n : Nat} {br : Bytes} {v : Int} {rest : Bytes}
    (h : decodeIntFixed n br = (some v, rest)) : 0 ≤ v ∧ 2 * v < 256 ^ n := by
  unfold decodeIntFixed at h
  split at h
  · simp at h
  · simp only at h
    split at h
    · simp at h
    · simp only [Prod.mk.injEq, Option.some.injEq] at h
      have hp : ((256 ^ n : Nat) : Int) = 256 ^ n := by simp
      omega

theorem parses_decodeString (s : Bytes) (h : s.length < 2 ^ 64) :
    Parses decodeString (strBytes s) s := by
  intro rest
  unfold decodeString strBytes
  rw [List.append_assoc, parses_decodeUInt64 s.length h (s ++ rest)]
  simp

theorem suffixy_decodeString : Suffixy decodeString := by
  intro br
  obtain ⟨pre, h⟩ := suffixy_decodeUInt64 br
  unfold decodeString
  rcases hd : decodeUInt64 br with ⟨_ | v, r⟩ <;> rw [hd] at h
  · exact ⟨pre, h⟩
  · simp only at h ⊢
    split
    · exact ⟨pre, h⟩
    · exact ⟨pre ++ r.take v, by simpa using h⟩

theorem suffixy_decodeByte : Suffixy decodeByte := by
  intro br
  cases br with
  | nil => exact ⟨[], rfl⟩
  | cons b r => exact ⟨[b], rfl⟩

/-! #### pointer level -/

/-- The bytes of `mem` in `[a, b)`. -/
def seg (mem : Bytes) (a b : Int) : Bytes := (mem.take b.toNat).drop a.toNat

theorem seg_length (mem : Bytes) (a b : Int) (h0 : 0 ≤ a) (h1 : a ≤ b) (h2 : b ≤ mem.length) :
    ((seg mem a b).length : Int) = b - a := by
  simp only [seg, List.length_drop, List.length_take]; omega

theorem seg_cons (mem : Bytes) (a b : Int) (h0 : 0 ≤ a) (h1 : a < b) (h2 : b ≤ mem.length) :
    ∃ x, loadByte mem a = .ok x ∧ seg mem a b = x :: seg mem (a + 1) b := by
  have hlt : a.toNat < mem.length := by omega
  refine ⟨mem[a.toNat], ?_, ?_⟩
  · unfold loadByte
    rw [if_pos ⟨h0, by omega⟩, List.getElem?_eq_getElem hlt]
  · unfold seg
    rw [List.drop_eq_getElem_cons (by simp; omega)]
    congr 1
    · simp
    · congr 1; omega

theorem seg_empty (mem : Bytes) (a b : Int) (h : b ≤ a) : seg mem a b = [] := by
  unfold seg
  apply List.drop_of_length_le
  simp; omega

theorem loadBytes_seg (mem : Bytes) (n : Nat) : ∀ (a b : Int), 0 ≤ a → a + n ≤ b → b ≤ mem.length →
    loadBytes mem a n = .ok ((seg mem a b).take n) ∧ seg mem (a + n) b = (seg mem a b).drop n := by
  induction n with
  | zero => intro a b _ _ _; simp [loadBytes]
  | succ n ih =>
    intro a b h0 h1 h2
    obtain ⟨x, hx, hs⟩ := seg_cons mem a b h0 (by omega) h2
    obtain ⟨i1, i2⟩ := ih (a + 1) b (by omega) (by omega) h2
    constructor
    · simp only [loadBytes, hx, i1, hs, List.take_succ_cons]
    · rw [hs, List.drop_succ_cons, ← i2]; congr 1; omega

theorem decVarPtrLoop_eq (mem : Bytes) (stop : Int) (hs : stop ≤ mem.length) (fuel : Nat) :
    ∀ (shift val : Nat) (p : Int), 0 ≤ p → p < stop →
      (∃ q, decVarPtrLoop mem stop fuel shift val p = .ok q ∧
        decVarLoop fuel shift val (seg mem p stop) = q.map (fun x => (x.1, seg mem x.2 stop)) ∧
        ∀ x, q = some x → p < x.2 ∧ x.2 ≤ stop) := by
  induction fuel with
  | zero =>
    intro shift val p h0 h1
    obtain ⟨x, hx, hseg⟩ := seg_cons mem p stop h0 h1 hs
    simp only [decVarPtrLoop, hx]
    refine ⟨_, rfl, ?_, ?_⟩
    · simp only [hseg, decVarLoop, Option.map_some]
    · rintro y hy
      simp only [Option.some.injEq] at hy
      subst hy; simp only; omega
  | succ n ih =>
    intro shift val p h0 h1
    obtain ⟨x, hx, hseg⟩ := seg_cons mem p stop h0 h1 hs
    simp only [decVarPtrLoop, hx, hseg, decVarLoop]
    by_cases hb : x.toNat &&& 0x80 ≠ 0
    · simp only [if_pos hb]
      by_cases hp : p + 1 ≥ stop
      · simp only [if_pos hp]
        refine ⟨none, rfl, ?_, by simp⟩
        rw [seg_empty mem (p + 1) stop hp]
        cases n <;> simp [decVarLoop]
      · simp only [if_neg hp]
        obtain ⟨q, h2, h3, h4⟩ := ih (shift + 7) _ (p + 1) (by omega) (by omega)
        exact ⟨q, h2, h3, fun y hy => by have := h4 y hy; omega⟩
    · simp only [if_neg hb]
      refine ⟨_, rfl, rfl, ?_⟩
      rintro y hy
      simp only [Option.some.injEq] at hy
      subst hy; simp only; omega

theorem decodeVarU64Ptr_eq (mem : Bytes) (start stop : Int) (h0 : 0 ≤ start) (h1 : start ≤ stop)
    (h2 : stop ≤ mem.length) :
    ∃ q, decodeVarU64Ptr mem start (stop - start) 0 = .ok q ∧
      decodeUInt64 (seg mem start stop) =
        (q.map (·.1), seg mem (start + (q.map (·.2)).getD 0) stop) ∧
      ∀ x, q = some x → 0 < x.2 ∧ start + x.2 ≤ stop := by
  unfold decodeVarU64Ptr decodeUInt64
  rw [if_neg (by omega)]
  by_cases h : start + 0 ≥ start + (stop - start)
  · rw [if_pos h]
    refine ⟨none, rfl, ?_, by simp⟩
    rw [seg_empty mem start stop (by omega)]
    simp [decVarLoop, seg_empty mem start stop (show stop ≤ start by omega)]
  · rw [if_neg h]
    have hst : start + (stop - start) = stop := by omega
    obtain ⟨q, hq, hd, hr⟩ := decVarPtrLoop_eq mem stop h2 8 0 0 (start + 0) (by omega) (by omega)
    rw [hst, hq]
    rw [Int.add_zero] at hd
    rw [hd]
    rcases q with _ | ⟨v, p⟩
    · exact ⟨none, rfl, by simp, by simp⟩
    · refine ⟨_, rfl, ?_, ?_⟩
      · simp only [Option.map_some, Option.getD_some]
        rw [show start + (p - start) = p by omega]
      · rintro y hy
        simp only [Option.some.injEq] at hy
        subst hy
        have := hr (v, p) rfl
        simp only at this ⊢; omega

theorem decodeStringPtr_eq (mem : Bytes) (start stop : Int) (h0 : 0 ≤ start) (h1 : start ≤ stop)
    (h2 : stop ≤ mem.length) :
    ∃ q, decodeStringPtr mem start stop = .ok q ∧
      (decodeString (seg mem start stop)).1 = q.map (·.1) ∧
      ∀ x, q = some x → start < x.2 ∧ x.2 ≤ stop ∧
        decodeString (seg mem start stop) = (some x.1, seg mem x.2 stop) := by
  obtain ⟨q, hq, hd, hr⟩ := decodeVarU64Ptr_eq mem start stop h0 h1 h2
  unfold decodeStringPtr decodeString
  rw [hq, hd]
  rcases q with _ | ⟨len, pos⟩
  · exact ⟨none, rfl, by simp, by simp⟩
  · have hr' := hr _ rfl
    simp only at hr'
    simp only [Option.map_some, Option.getD_some]
    have hl := seg_length mem (start + pos) stop (by omega) (by omega) h2
    by_cases hlen : (len : Int) > stop - (start + pos)
    · rw [if_pos hlen, if_pos (by omega)]
      exact ⟨none, rfl, by simp, by simp⟩
    · rw [if_neg hlen, if_neg (by omega)]
      obtain ⟨l1, l2⟩ := loadBytes_seg mem len (start + pos) stop (by omega) (by omega) h2
      rw [l1]
      refine ⟨_, rfl, by simp, ?_⟩
      rintro y hy
      simp only [Option.some.injEq] at hy
      subst hy
      simp only
      refine ⟨by omega, by omega, ?_⟩
      rw [l2]

theorem decodeIntFixedPtr_eq (n : Nat) (mem : Bytes) (start stop : Int) (h0 : 0 ≤ start)
    (h1 : start ≤ stop) (h2 : stop ≤ mem.length) :
    ∃ q, decodeIntFixedPtr n mem start stop = .ok q ∧
      (decodeIntFixed n (seg mem start stop)).1 = q.map (·.1) ∧
      ∀ x, q = some x → x.2 = start + n ∧ x.2 ≤ stop ∧
        decodeIntFixed n (seg mem start stop) = (some x.1, seg mem x.2 stop) := by
  have hl := seg_length mem start stop h0 h1 h2
  unfold decodeIntFixedPtr decodeIntFixed
  by_cases hn : stop - start < n
  · rw [if_pos hn, if_pos (by omega)]
    exact ⟨none, rfl, by simp, by simp⟩
  · rw [if_neg hn, if_neg (by omega)]
    obtain ⟨l1, l2⟩ := loadBytes_seg mem n start stop h0 (by omega) h2
    rw [l1]
    simp only
    by_cases hneg : 2 * leNat ((seg mem start stop).take n) ≥ 256 ^ n
    · rw [if_pos hneg, if_pos hneg]
      exact ⟨none, rfl, by simp, by simp⟩
    · rw [if_neg hneg, if_neg hneg]
      refine ⟨_, rfl, by simp, ?_⟩
      rintro y hy
      simp only [Option.some.injEq] at hy
      subst hy
      simp only
      exact ⟨trivial, by omega, by rw [l2]⟩

/-! #### encoded lengths -/

theorem varBytesLoop_length_lt (k : Nat) : ∀ (fuel v : Nat), 1 ≤ k → k ≤ fuel + 1 → v < 2 ^ (7 * k) →
    (varBytesLoop fuel v).length ≤ k := by
  induction k with
  | zero => intro fuel v h; omega
  | succ k ih =>
    intro fuel v _ hf hv
    cases fuel with
    | zero => simp [varBytesLoop]
    | succ n =>
      unfold varBytesLoop
      split
      · rename_i h
        simp only [List.length_cons]
        by_cases hk : k = 0
        · subst hk; simp at hv; omega
        · have : (v >>> 7) < 2 ^ (7 * k) := by
            rw [Nat.shiftRight_eq_div_pow]
            rw [show 7 * (k + 1) = 7 * k + 7 by omega, Nat.pow_add] at hv
            omega
          have := ih n (v >>> 7) (by omega) (by omega) this
          omega
      · simp

theorem encodeVarU64Str_length_lt (k v : Nat) (h1 : 1 ≤ k) (hk : k ≤ 9) (h : v < 2 ^ (7 * k)) :
    (encodeVarU64Str v).length ≤ k := varBytesLoop_length_lt k 8 v h1 (by omega) h

theorem encodeVarU64Str_length_le (v : Nat) : (encodeVarU64Str v).length ≤ 9 :=
  varBytesLoop_length_le 8 v

theorem encodeVarU64Str_length_pos (v : Nat) : 1 ≤ (encodeVarU64Str v).length :=
  varBytesLoop_length_pos 8 v

theorem parses_decodeByte (b : UInt8) : Parses decodeByte [b] b := fun _ => rfl

end Wdt
