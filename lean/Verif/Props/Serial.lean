import Verif.Lemmas.Serial
/-
C01 - C04: serialization primitives.
Property theorems only; helper lemmas are in Verif/Lemmas/Serial.lean.
-/
namespace Wdt

/-! ## C01 Variable-length integers survive the wire -/

/-- Every 64-bit value, followed by anything, is decoded back; exactly the
written bytes are consumed; 1 to 9 bytes are used. -/
theorem C01_varint_roundtrip (v : Nat) (hv : v < 2 ^ 64) (rest : Bytes) :
    decodeUInt64 (encodeVarU64Str v ++ rest) = (some v, rest) ∧
    1 ≤ (encodeVarU64Str v).length ∧ (encodeVarU64Str v).length ≤ 9 :=
  ⟨parses_decodeUInt64 v hv rest, encodeVarU64Str_length_pos v, encodeVarU64Str_length_le v⟩

example : decodeUInt64 (encodeVarU64Str 18446744073709551615 ++ [7]) =
    (some 18446744073709551615, [7]) := by decide +kernel

/-- The same through a real buffer: what the buffer encoder stored at `[off, off')`
is read back by the pointer-level decoder as `v`, ending exactly at `off'`. -/
theorem C01_varint_buffer_roundtrip (v max : Nat) (hv : v < 2 ^ 64) (buf buf' : Bytes)
    (off off' : Int) (h0 : 0 ≤ off) (h1 : off ≤ max) (hm : (max : Int) ≤ buf.length)
    (henc : encodeVarU64 max v buf off = .ok (true, buf', off')) :
    decodeVarU64Ptr buf' 0 (buf'.length : Int) off = .ok (some (v, off')) := by
  have w := writes_encodeVarU64 max v buf off h0 h1 hm
  by_cases hfit : off + (encodeVarU64Str v).length ≤ max
  · have := w.1 hfit
    rw [henc] at this
    simp only [Except.ok.injEq, Prod.mk.injEq, true_and] at this
    obtain ⟨rfl, rfl⟩ := this
    have hl := splice_length buf off.toNat (encodeVarU64Str v) (by omega)
    generalize hB : splice buf off.toNat (encodeVarU64Str v) = B at *
    have hpos := encodeVarU64Str_length_pos v
    obtain ⟨q, hq, hd, hr⟩ := decodeVarU64Ptr_eq B off B.length h0 (by omega) (by omega)
    have hseg : seg B off B.length = encodeVarU64Str v ++ buf.drop (off.toNat + (encodeVarU64Str v).length) := by
      rw [← hB]
      unfold seg splice
      rw [List.take_of_length_le (by simp; omega), List.append_assoc, List.drop_append_of_le_length (by simp; omega),
        List.drop_of_length_le (by simp; omega), List.nil_append]
    rw [hseg, parses_decodeUInt64 v hv] at hd
    rcases q with _ | ⟨v', p⟩
    · simp at hd
    · simp only [Option.map_some, Prod.mk.injEq, Option.some.injEq, Option.getD_some] at hd
      obtain ⟨rfl, hd2⟩ := hd
      have hr' := hr _ rfl
      simp only at hr'
      have hp : p = (encodeVarU64Str v).length := by
        have := seg_length B (off + p) B.length (by omega) (by omega) (by omega)
        rw [← hd2] at this
        simp only [List.length_drop] at this
        omega
      -- decodeVarU64Ptr from base 0 at off equals from base off at 0
      unfold decodeVarU64Ptr at hq ⊢
      rw [if_neg (by omega)] at hq ⊢
      rw [if_neg (by omega)] at hq ⊢
      rw [show off + (↑(List.length B) - off) = (0 : Int) + ↑(List.length B) by omega,
        show off + 0 = 0 + off by omega] at hq
      rcases hx : decVarPtrLoop B (0 + ↑(List.length B)) 8 0 0 (0 + off) with f | _ | ⟨a, b⟩
      · rw [hx] at hq; simp at hq
      · rw [hx] at hq; simp at hq
      · rw [hx] at hq
        simp only [Except.ok.injEq, Option.some.injEq, Prod.mk.injEq] at hq ⊢
        exact ⟨hq.1, by omega⟩
  · obtain ⟨_, _, he, _⟩ := w.2 (by omega)
    rw [henc] at he; simp at he

example : encodeVarU64 5 300 [0, 0, 0, 0, 0] 1 = .ok (true, [0, 0xac, 2, 0, 0], 3) := by decide +kernel

/-- A smaller value never takes more bytes than its magnitude requires. -/
theorem C01_varint_compact (k v : Nat) (h1 : 1 ≤ k) (hk : k ≤ 9) (h : v < 2 ^ (7 * k)) :
    (encodeVarU64Str v).length ≤ k := encodeVarU64Str_length_lt k v h1 hk h

example : (encodeVarU64Str 16383).length = 2 := by decide +kernel

/-! ## C02 Signed integers survive the wire and out-of-range ones are refused -/

/-- Zigzag encoding of every `int64_t`. -/
theorem C02_zigzag64_roundtrip (i : Int) (h1 : -2 ^ 63 ≤ i) (h2 : i < 2 ^ 63) (rest : Bytes) :
    decodeInt64 (encodeVarU64Str (encodeZigZag (BitVec.ofInt 64 i)).toNat ++ rest) = (some i, rest) := by
  rw [encodeZigZag_ofInt i h1 h2]; exact parses_decodeInt64 i h1 h2 rest

/-- Zigzag encoding of every `int32_t`. -/
theorem C02_zigzag32_roundtrip (i : Int) (h1 : int32Min ≤ i) (h2 : i ≤ int32Max) (rest : Bytes) :
    decodeInt32 (encodeVarU64Str (encodeZigZag (BitVec.ofInt 64 i)).toNat ++ rest) = (some i, rest) := by
  rw [encodeZigZag_ofInt i (by unfold int32Min at h1; omega) (by unfold int32Max at h2; omega)]
  exact parses_decodeInt32 i h1 h2 rest

/-- Non-negative encoding of every non-negative `int64_t`, `int32_t`. -/
theorem C02_nonneg_roundtrip (i : Int) (h1 : 0 ≤ i) (h2 : i ≤ int64Max) (rest : Bytes) :
    decodeInt64C (encodeVarU64Str i.toNat ++ rest) = (some i, rest) ∧
    (i ≤ int32Max → decodeInt32C (encodeVarU64Str i.toNat ++ rest) = (some i, rest)) :=
  ⟨parses_decodeInt64C i h1 h2 rest, fun h => parses_decodeInt32C i h1 h rest⟩

/-- Whatever bytes arrive, an accepted number is in the range of its type. -/
theorem C02_decoded_in_range (br : Bytes) (v : Int) (rest : Bytes) :
    (decodeInt64 br = (some v, rest) → -2 ^ 63 ≤ v ∧ v < 2 ^ 63) ∧
    (decodeInt32 br = (some v, rest) → int32Min ≤ v ∧ v ≤ int32Max) ∧
    (decodeInt64C br = (some v, rest) → 0 ≤ v ∧ v ≤ int64Max) ∧
    (decodeInt32C br = (some v, rest) → 0 ≤ v ∧ v ≤ int32Max) ∧
    (decodeIntFixed 2 br = (some v, rest) → 0 ≤ v ∧ v < 2 ^ 15) ∧
    (decodeIntFixed 4 br = (some v, rest) → 0 ≤ v ∧ v < 2 ^ 31) ∧
    (decodeIntFixed 8 br = (some v, rest) → 0 ≤ v ∧ v < 2 ^ 63) := by
  have h64 : decodeInt64 br = (some v, rest) → -2 ^ 63 ≤ v ∧ v < 2 ^ 63 := by
    intro h
    unfold decodeInt64 at h
    rcases hd : decodeUInt64 br with ⟨_ | u, r⟩ <;> rw [hd] at h
    · simp at h
    · simp only [Prod.mk.injEq, Option.some.injEq] at h
      rw [← h.1]
      have := BitVec.le_toInt (x := decodeZigZag (BitVec.ofNat 64 u))
      have := BitVec.toInt_lt (x := decodeZigZag (BitVec.ofNat 64 u))
      omega
  refine ⟨h64, ?_, decodeInt64C_some, decodeInt32C_some, ?_, ?_, ?_⟩
  · intro h
    unfold decodeInt32 at h
    rcases hd : decodeInt64 br with ⟨_ | u, r⟩ <;> rw [hd] at h
    · simp at h
    · simp only at h
      split at h
      · simp at h
      · simp only [Prod.mk.injEq, Option.some.injEq] at h
        rw [← h.1]; omega
  · intro h; have := decodeIntFixed_some h; omega
  · intro h; have := decodeIntFixed_some h; omega
  · intro h; have := decodeIntFixed_some h; omega

/-- A negative value written with the zigzag encoding is never taken for a
32-bit one when it does not fit, and nothing is consumed then. -/
theorem C02_int32_refuses (i : Int) (h1 : -2 ^ 63 ≤ i) (h2 : i < 2 ^ 63)
    (hout : i < int32Min ∨ int32Max < i) (rest : Bytes) :
    decodeInt32 (encodeVarU64Str (encodeZigZag (BitVec.ofInt 64 i)).toNat ++ rest) =
      (none, encodeVarU64Str (encodeZigZag (BitVec.ofInt 64 i)).toNat ++ rest) := by
  unfold decodeInt32
  rw [C02_zigzag64_roundtrip i h1 h2 rest]
  simp only
  rw [if_pos (by omega)]

/-- Fixed-width integers: every non-negative value round-trips. -/
theorem C02_fixed_roundtrip (n : Nat) (v : Int) (h0 : 0 ≤ v) (h : 2 * v < 256 ^ n) (rest : Bytes) :
    decodeIntFixed n (leBytes n v ++ rest) = (some v, rest) :=
  parses_decodeIntFixed n v h0 h rest

/-- Fixed-width integers: every negative value is refused. -/
theorem C02_fixed_refuses_negative (n : Nat) (v : Int) (h0 : v < 0)
    (h : -(256 ^ n) ≤ 2 * v) (rest : Bytes) :
    (decodeIntFixed n (leBytes n v ++ rest)).1 = none := by
  have key : ∀ (n : Nat) (v : Int), (leNat (leBytes n v) : Int) = v % 256 ^ n := by
    intro n
    induction n with
    | zero => intro v; simp [leBytes, leNat]
    | succ n ih =>
      intro v
      simp only [leBytes, leNat]
      have hb : (UInt8.ofNat (v % 256).toNat).toNat = (v % 256).toNat := by
        simp [UInt8.toNat_ofNat']; omega
      rw [hb]
      have := ih (v / 256)
      have e : v % 256 ^ (n + 1) = v % 256 + 256 * ((v / 256) % 256 ^ n) := by
        have hP : (0 : Int) < 256 ^ n := Int.pow_pos (by omega)
        rw [Int.pow_succ]
        generalize (256 : Int) ^ n = P at *
        have h1 := Int.emod_add_mul_ediv (v / 256) P
        have h2 := Int.emod_nonneg (v / 256) (show P ≠ 0 by omega)
        have h3 := Int.emod_lt_of_pos (v / 256) hP
        generalize hq : (v / 256) / P = q at *
        generalize hr : (v / 256) % P = r at *
        have hv : v = (v % 256 + 256 * r) + (P * 256) * q := by
          have : (P * 256) * q = 256 * (P * q) := by
            rw [Int.mul_comm P 256, Int.mul_assoc]
          omega
        have hlt : v % 256 + 256 * r < P * 256 := by omega
        have : ((v % 256 + 256 * r) + (P * 256) * q) % (P * 256) = v % 256 + 256 * r := by
          rw [Int.add_mul_emod_self_left]
          exact Int.emod_eq_of_lt (by omega) hlt
        rw [← hv] at this
        exact this
      omega
  have hl := leBytes_length n v
  have ht : (leBytes n v ++ rest).take n = leBytes n v := by
    rw [List.take_append_of_le_length (by omega), List.take_of_length_le (by omega)]
  unfold decodeIntFixed
  rw [if_neg (by simp [hl])]
  simp only [ht]
  rw [if_pos]
  have hk := key n v
  have hp : ((256 ^ n : Nat) : Int) = 256 ^ n := by simp
  have hpos : (0 : Int) < 256 ^ n := Int.pow_pos (by omega)
  have hmod : v % 256 ^ n = v + 256 ^ n := by
    rw [← Int.add_emod_right]
    apply Int.emod_eq_of_lt <;> omega
  omega

example : decodeIntFixed 2 (leBytes 2 (-1) ++ [9]) = (none, [9]) ∧
    decodeIntFixed 2 (leBytes 2 32767 ++ [9]) = (some 32767, [9]) := by decide +kernel

/-! ## C03 Encoders never write outside the space they were given -/

/-- Specification of a well-behaved encoder of `len` bytes with limit `max`. -/
def StaysInBounds (max : Int) (len : Nat) (e : Enc) : Prop :=
  ∀ (buf : Bytes) (off : Int), 0 ≤ off → max ≤ (buf.length : Int) →
    ∃ ok buf' off', e buf off = .ok (ok, buf', off') ∧
      (ok = true ↔ off + len ≤ max) ∧
      buf'.length = buf.length ∧
      (∀ i : Nat, ((i : Int) < off ∨ max ≤ (i : Int)) → buf'[i]? = buf[i]?) ∧
      (ok = true → off' = off + len)

theorem writes_stays {max : Int} {e : Enc} {bs : Bytes} (w : Writes max e bs) (hne : 1 ≤ bs.length)
    (hpast : ∀ buf off, 0 ≤ off → max < off → ∃ off', e buf off = .ok (false, buf, off')) :
    StaysInBounds max bs.length e := by
  intro buf off h0 hm
  by_cases h1 : off ≤ max
  · have := w buf off h0 h1 hm
    by_cases hf : off + bs.length ≤ max
    · have hs := splice_sameOutside buf off bs max h0 hf hm
      exact ⟨true, _, _, this.1 hf, by simp [hf], hs.1, hs.2, by simp⟩
    · obtain ⟨buf', off', he, hs, _, _⟩ := this.2 (by omega)
      exact ⟨false, buf', off', he, by simp; omega, hs.1, hs.2, by simp⟩
  · obtain ⟨off', he⟩ := hpast buf off h0 (by omega)
    exact ⟨false, buf, off', he, by simp; omega, rfl, fun _ _ => rfl, by simp⟩

theorem varU64_past (max : Nat) (v : Nat) (buf : Bytes) (off : Int) (h0 : 0 ≤ off)
    (h : (max : Int) < off) : encodeVarU64 max v buf off = .ok (false, buf, off) := by
  unfold encodeVarU64
  rw [if_neg (by omega)]
  have : encVarLoop max 8 buf off v = .ok (false, buf, off) := by
    unfold encVarLoop
    split <;> rw [if_pos (by omega)]
  rw [this]

theorem C03_encodeVarU64 (max v : Nat) :
    StaysInBounds max (encodeVarU64Str v).length (encodeVarU64 max v) :=
  writes_stays (writes_encodeVarU64 max v) (encodeVarU64Str_length_pos v)
    (fun buf off h0 h => ⟨off, varU64_past max v buf off h0 h⟩)

/-- An offset before the array: the varint and string encoders refuse and write nothing. -/
theorem C03_before_start (max v : Nat) (sv : Int) (sz : Int) (str buf : Bytes) (off : Int) (h : off < 0) :
    encodeVarU64 max v buf off = .ok (false, buf, off) ∧ encodeVarI64 max sv buf off = .ok (false, buf, off) ∧
    encodeString sz str buf off = .ok (false, buf, off) := by
  have e : ∀ m n, encodeVarU64 m n buf off = .ok (false, buf, off) := by
    intro m n; unfold encodeVarU64; rw [if_pos h]
  exact ⟨e _ _, e _ _, by unfold encodeString; rw [e]⟩

example : encodeVarU64 5 300 [1, 2] (-1) = .ok (false, [1, 2], -1) := by decide +kernel

theorem C03_encodeVarI64 (max : Nat) (v : Int) :
    StaysInBounds max (encodeVarU64Str (encodeZigZag (BitVec.ofInt 64 v)).toNat).length
      (encodeVarI64 max v) := C03_encodeVarU64 max _

/-- For the encoding that only supports non-negative numbers; a negative number
aborts the process (`Fault.check`) before anything is written. -/
theorem C03_encodeVarI64C (max : Nat) (v : Int) :
    (0 ≤ v → StaysInBounds max (encodeVarU64Str v.toNat).length (encodeVarI64C max v)) ∧
    (v < 0 → ∀ buf off, encodeVarI64C max v buf off = .error .check) := by
  refine ⟨fun h buf off h0 hm => ?_, fun h buf off => by simp [encodeVarI64C, h]⟩
  have := C03_encodeVarU64 max v.toNat buf off h0 hm
  unfold encodeVarI64C
  rwa [if_neg (by omega)]

theorem C03_encodeIntFixed (n : Nat) (hn : 1 ≤ n) (max v : Int) :
    StaysInBounds max n (encodeIntFixed n max v) := by
  have := writes_stays (writes_encodeIntFixed n max v) (by rw [leBytes_length]; exact hn)
    (fun buf off h0 h => ⟨off, by unfold encodeIntFixed; rw [if_pos (by omega)]⟩)
  rwa [leBytes_length] at this

theorem C03_encodeString (max : Int) (hm0 : 0 ≤ max) (hm : max ≤ int64Max) (s : Bytes) :
    StaysInBounds max ((encodeVarU64Str s.length).length + s.length) (encodeString max s) := by
  have := writes_stays (writes_encodeString max hm0 hm s)
    (by have := encodeVarU64Str_length_pos s.length; simp [strBytes]; omega)
    (fun buf off h0 h => ⟨off, by
      have := varU64_past (toU64 max) s.length buf off h0 (by rw [toU64_of_range max hm0 hm]; exact h)
      simp only [encodeString, this]⟩)
  simpa [strBytes] using this

example : encodeString 4 [65, 66, 67] [0, 0, 0, 0, 9] 0 = .ok (true, [3, 65, 66, 67, 9], 4) ∧
    encodeString 3 [65, 66, 67] [0, 0, 0, 0, 9] 0 = .ok (false, [3, 0, 0, 0, 9], 1) := by
  decide +kernel

/-! ## C04 Decoders are total and stay inside the received bytes -/

/-- Pointer level: on any range inside the array the varint, string and
fixed-width decoders never load outside it (no `Fault`), never report a position
outside the range, and agree with the range-level decoders. -/
theorem C04_no_out_of_bounds_read (mem : Bytes) (start stop : Int) (h0 : 0 ≤ start)
    (h1 : start ≤ stop) (h2 : stop ≤ mem.length) :
    (∃ q, decodeVarU64Ptr mem start (stop - start) 0 = .ok q ∧
      (decodeUInt64 ((mem.take stop.toNat).drop start.toNat)).1 = q.map (·.1) ∧
      ∀ v p, q = some (v, p) → 0 < p ∧ start + p ≤ stop) ∧
    (∃ q, decodeStringPtr mem start stop = .ok q ∧
      (decodeString ((mem.take stop.toNat).drop start.toNat)).1 = q.map (·.1) ∧
      ∀ v p, q = some (v, p) → start < p ∧ p ≤ stop) ∧
    (∀ n, ∃ q, decodeIntFixedPtr n mem start stop = .ok q ∧
      (decodeIntFixed n ((mem.take stop.toNat).drop start.toNat)).1 = q.map (·.1) ∧
      ∀ v p, q = some (v, p) → p = start + n ∧ p ≤ stop) := by
  refine ⟨?_, ?_, fun n => ?_⟩
  · obtain ⟨q, a, b, c⟩ := decodeVarU64Ptr_eq mem start stop h0 h1 h2
    refine ⟨q, a, ?_, fun v p h => c (v, p) h⟩
    have : (seg mem start stop) = (mem.take stop.toNat).drop start.toNat := rfl
    rw [← this, b]
  · obtain ⟨q, a, b, c⟩ := decodeStringPtr_eq mem start stop h0 h1 h2
    exact ⟨q, a, b, fun v p h => ⟨(c (v, p) h).1, (c (v, p) h).2.1⟩⟩
  · obtain ⟨q, a, b, c⟩ := decodeIntFixedPtr_eq n mem start stop h0 h1 h2
    exact ⟨q, a, b, fun v p h => ⟨(c (v, p) h).1, (c (v, p) h).2.1⟩⟩

example : decodeStringPtr [9, 3, 65, 66, 67, 9] 1 5 = .ok (some ([65, 66, 67], 5)) ∧
    decodeStringPtr [9, 3, 65, 66, 67, 9] 1 4 = .ok none := by decide +kernel

/-- Making the range: a negative offset or size ends the process; otherwise the range is the bytes from the offset to
the size, if they are in the array and in this order. -/
theorem C04_make_range (buf : Bytes) (sz off : Int) :
    (off < 0 ∨ sz < 0 → makeByteRange buf sz off = .error .check) ∧
    (0 ≤ off → off ≤ sz → sz ≤ buf.length → ∃ br, makeByteRange buf sz off = .ok br ∧ (br.length : Int) = sz - off ∧
      ∀ i : Nat, i < br.length → br[i]? = buf[off.toNat + i]?) := by
  constructor
  · intro h; unfold makeByteRange; rw [if_pos h]
  · intro h0 h1 h2
    refine ⟨(buf.take sz.toNat).drop off.toNat, ?_, ?_, ?_⟩
    · unfold makeByteRange; rw [if_neg (by omega), if_neg (by omega)]
    · rw [List.length_drop, List.length_take]; omega
    · intro i hi
      rw [List.length_drop, List.length_take] at hi
      rw [List.getElem?_drop, List.getElem?_take, if_pos (by omega)]

example : makeByteRange [1, 2, 3, 4] 3 1 = .ok [2, 3] ∧ makeByteRange [1, 2, 3, 4] 3 (-1) = .error .check := by decide +kernel

/-- What every primitive decoder leaves unread is a suffix of its range, on
success and on failure. -/
theorem C04_rest_is_suffix (br : Bytes) :
    (decodeUInt64 br).2 <:+ br ∧ (decodeInt64 br).2 <:+ br ∧ (decodeInt32 br).2 <:+ br ∧
    (decodeInt64C br).2 <:+ br ∧ (decodeInt32C br).2 <:+ br ∧ (decodeString br).2 <:+ br ∧
    ∀ n, (decodeIntFixed n br).2 <:+ br := by
  have aux : ∀ {α : Type} (d : Dec α), Suffixy d → (d br).2 <:+ br := by
    intro α d h
    obtain ⟨p, hp⟩ := h br
    exact ⟨p, hp.symm⟩
  exact ⟨aux _ suffixy_decodeUInt64, aux _ suffixy_decodeInt64, aux _ suffixy_decodeInt32,
    aux _ suffixy_decodeInt64C, aux _ suffixy_decodeInt32C, aux _ suffixy_decodeString,
    fun n => aux _ (suffixy_decodeIntFixed n)⟩

/-- A decoded string is a substring of the input, directly before the rest. -/
theorem C04_string_is_substring (br s rest : Bytes) (h : decodeString br = (some s, rest)) :
    ∃ pre, br = pre ++ s ++ rest ∧ 1 ≤ pre.length ∧ pre.length ≤ 9 := by
  unfold decodeString at h
  rcases hd : decodeUInt64 br with ⟨_ | v, r⟩ <;> rw [hd] at h
  · simp at h
  · obtain ⟨_, pre, hp, hl⟩ := decodeUInt64_some hd
    simp only at h
    split at h
    · simp at h
    · simp only [Prod.mk.injEq, Option.some.injEq] at h
      exact ⟨pre, by rw [← h.1, ← h.2, hp]; simp, hl⟩

example : decodeString [2, 65, 66, 67] = (some [65, 66], [67]) := by decide +kernel

end Wdt
