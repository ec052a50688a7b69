import Verif.Model.Crc
import Verif.Props.SenderStream

/-! Lemmas about the checksum of a block. -/

namespace Wdt

theorem crcShift_top (s : BitVec 32) : (crcShift s).getLsbD 31 = s.getLsbD 0 := by
  unfold crcShift
  have hp : crcPoly.getLsbD 31 = true := by decide
  have h32 : s.getLsbD (1 + 31) = false := BitVec.getLsbD_of_ge _ _ (by omega)
  split
  · next h => rw [BitVec.getLsbD_xor, BitVec.getLsbD_ushiftRight, h32, hp, h]; rfl
  · next h => rw [BitVec.getLsbD_ushiftRight, h32]; simpa using h

/-- What the registers differed in before a shift, from what they differ in after it. -/
theorem crcShift_back (p q d : BitVec 32) (h : crcShift p ^^^ crcShift q = d) (hd : d.getLsbD 31 = false) :
    p ^^^ q = d <<< 1 := by
  have h0 : p.getLsbD 0 = q.getLsbD 0 := by
    have := congrArg (fun x => x.getLsbD 31) h
    simp only [BitVec.getLsbD_xor, crcShift_top, hd] at this
    simpa using this
  have hs : (p >>> 1) ^^^ (q >>> 1) = d := by
    rw [← h]
    unfold crcShift
    by_cases hq : q.getLsbD 0 = true
    · rw [if_pos hq, if_pos (by rw [h0]; exact hq)]
      apply BitVec.eq_of_getLsbD_eq
      intro i hi
      simp only [BitVec.getLsbD_xor]
      cases (p >>> 1).getLsbD i <;> cases (q >>> 1).getLsbD i <;> cases crcPoly.getLsbD i <;> rfl
    · rw [if_neg hq, if_neg (by rw [h0]; exact hq)]
  apply BitVec.eq_of_getLsbD_eq
  intro i hi
  rw [BitVec.getLsbD_xor, BitVec.getLsbD_shiftLeft]
  rcases Nat.eq_zero_or_pos i with rfl | hpos
  · rw [h0]; simp
  · have := congrArg (fun x => x.getLsbD (i - 1)) hs
    simp only [BitVec.getLsbD_xor, BitVec.getLsbD_ushiftRight] at this
    rw [show 1 + (i - 1) = i by omega] at this
    rw [this]
    simp [hi, show ¬ i < 1 by omega]

theorem crcShift_inj (p q : BitVec 32) (h : crcShift p = crcShift q) : p = q := by
  have := crcShift_back p q 0#32 (by rw [h, BitVec.xor_self]) (by decide)
  have h0 : p ^^^ q = 0#32 := by rw [this]; decide
  apply BitVec.eq_of_getLsbD_eq
  intro i hi
  have := congrArg (fun x => x.getLsbD i) h0
  simpa [BitVec.getLsbD_xor] using this

theorem xor_right_inj' (a b c : BitVec 32) (h : a ^^^ c = b ^^^ c) : a = b := by
  apply BitVec.eq_of_getLsbD_eq
  intro i hi
  have := congrArg (fun x => x.getLsbD i) h
  simpa [BitVec.getLsbD_xor] using this

theorem crcBits_inj (l : List Bool) : ∀ a b : BitVec 32, l.foldl crcBit a = l.foldl crcBit b → a = b := by
  induction l with
  | nil => exact fun a b h => h
  | cons x l ih =>
    intro a b h
    exact xor_right_inj' _ _ _ (crcShift_inj _ _ (ih _ _ h))

/-- The bits in which two lists differ, the first in the lowest bit. -/
def diffWord : List Bool → List Bool → BitVec 32
  | x :: xs, y :: ys => (diffWord xs ys <<< 1) ^^^ (if xor x y then 1#32 else 0#32)
  | _, _ => 0#32

theorem diffWord_high : ∀ (xs ys : List Bool) (i : Nat), xs.length ≤ i → (diffWord xs ys).getLsbD i = false
  | [], ys, i, _ => by simp [diffWord]
  | _ :: _, [], i, _ => by simp [diffWord]
  | x :: xs, y :: ys, i, h => by
    simp only [List.length_cons] at h
    have ih := diffWord_high xs ys (i - 1) (by omega)
    rw [diffWord, BitVec.getLsbD_xor, BitVec.getLsbD_shiftLeft, ih]
    have h1 : (1#32).getLsbD i = false := by
      rw [BitVec.getLsbD_one]
      simp; omega
    split
    · simp [h1]
    · simp

theorem crcBits_diff : ∀ (xs ys : List Bool) (a b : BitVec 32), xs.length = ys.length → xs.length ≤ 32 →
    xs.foldl crcBit a = ys.foldl crcBit b → a ^^^ b = diffWord xs ys
  | [], [], a, b, _, _, h => by
    simp only [List.foldl_nil] at h
    rw [h, BitVec.xor_self]; rfl
  | x :: xs, y :: ys, a, b, hl, h32, h => by
    simp only [List.length_cons] at hl h32
    have ih := crcBits_diff xs ys (crcBit a x) (crcBit b y) (by omega) (by omega) h
    have hb := crcShift_back _ _ _ ih (diffWord_high xs ys 31 (by omega))
    rw [diffWord, ← hb]
    apply BitVec.eq_of_getLsbD_eq
    intro i hi
    cases x <;> cases y <;> simp [BitVec.getLsbD_xor]
    all_goals cases a.getLsbD i <;> cases b.getLsbD i <;> simp

theorem diffWord_zero : ∀ (xs ys : List Bool), xs.length = ys.length → xs.length ≤ 32 → diffWord xs ys = 0#32 → xs = ys
  | [], [], _, _, _ => rfl
  | x :: xs, y :: ys, hl, h32, h => by
    simp only [List.length_cons] at hl h32
    have hxy : x = y := by
      have := congrArg (fun w => w.getLsbD 0) h
      simp only [diffWord, BitVec.getLsbD_xor, BitVec.getLsbD_shiftLeft] at this
      cases x <;> cases y <;> simp_all
    have h0 : diffWord xs ys = 0#32 := by
      apply BitVec.eq_of_getLsbD_eq
      intro i hi
      by_cases h31 : i = 31
      · rw [diffWord_high xs ys i (by omega)]; simp
      · have := congrArg (fun w => w.getLsbD (i + 1)) h
        simp only [diffWord, BitVec.getLsbD_xor, BitVec.getLsbD_shiftLeft] at this
        rw [hxy] at this
        simpa [show i + 1 < 32 by omega] using this
    rw [hxy, diffWord_zero xs ys (by omega) (by omega) h0]

/-- Differences within 32 bits change the register. -/
theorem crcBits_burst (u v v' w : List Bool) (s : BitVec 32) (hl : v.length = v'.length) (h32 : v.length ≤ 32)
    (h : (u ++ v ++ w).foldl crcBit s = (u ++ v' ++ w).foldl crcBit s) : v = v' := by
  simp only [List.foldl_append] at h
  have h1 := crcBits_inj w _ _ h
  have h2 := crcBits_diff v v' _ _ hl h32 h1
  rw [BitVec.xor_self] at h2
  exact diffWord_zero v v' hl h32 h2.symm

/-! Parity -/

/-- Parity of the bits of a list. -/
def parity (l : List Bool) : Bool := l.foldr xor false

/-- Bits of the register, lowest first. -/
def regBits (s : BitVec 32) : List Bool := (List.range 32).map (fun i => s.getLsbD i)

theorem parity_map_xor (l : List Nat) (f g : Nat → Bool) :
    parity (l.map (fun i => xor (f i) (g i))) = xor (parity (l.map f)) (parity (l.map g)) := by
  unfold parity
  induction l with
  | nil => rfl
  | cons a l ih =>
    simp only [List.map_cons, List.foldr_cons, ih]
    cases f a <;> cases g a <;> simp

theorem parity_xor (a b : BitVec 32) : parity (regBits (a ^^^ b)) = xor (parity (regBits a)) (parity (regBits b)) := by
  unfold regBits
  rw [← parity_map_xor]
  simp only [BitVec.getLsbD_xor]

theorem parity_shift (s : BitVec 32) : parity (regBits (s >>> 1)) = xor (parity (regBits s)) (s.getLsbD 0) := by
  have h32 : s.getLsbD 32 = false := BitVec.getLsbD_of_ge _ _ (by omega)
  unfold regBits parity
  simp only [BitVec.getLsbD_ushiftRight]
  rw [show List.range 32 = [0,1,2,3,4,5,6,7,8,9,10,11,12,13,14,15,16,17,18,19,20,21,22,23,24,25,26,27,28,29,30,31] from by decide]
  simp only [List.map_cons, List.map_nil, List.foldr_cons, List.foldr_nil, Nat.reduceAdd, h32,
    Bool.xor_false]
  have hx : ∀ c d : Bool, d = ((c ^^ d) ^^ c) := by decide
  exact hx _ _

theorem parity_crcShift (s : BitVec 32) : parity (regBits (crcShift s)) = parity (regBits s) := by
  have hp : parity (regBits crcPoly) = true := by decide
  unfold crcShift
  split
  · next h => rw [parity_xor, parity_shift, hp, h]; cases parity (regBits s) <;> rfl
  · next h =>
    rw [parity_shift]
    have : s.getLsbD 0 = false := by simpa using h
    rw [this]; cases parity (regBits s) <;> rfl

theorem parity_crcBits (l : List Bool) : ∀ s : BitVec 32,
    parity (regBits (l.foldl crcBit s)) = xor (parity (regBits s)) (parity l) := by
  induction l with
  | nil => intro s; simp [parity]
  | cons x l ih =>
    intro s
    rw [List.foldl_cons, ih, crcBit, parity_crcShift, parity_xor]
    have h1 : parity (regBits 1#32) = true := by decide
    have h0 : parity (regBits 0#32) = false := by decide
    show _ = xor _ (xor x (parity l))
    cases x <;> simp [h1, h0]

/-! Bytes -/

theorem crcBytes_append (s : BitVec 32) (a b : Bytes) : crcBytes s (a ++ b) = crcBytes (crcBytes s a) b := by
  unfold crcBytes
  rw [List.flatMap_append, List.foldl_append]

theorem crc32c_fold (data : Bytes) : ∀ s : BitVec 32, data.foldl crc32c s.toInt = (crcBytes s data).toInt := by
  induction data with
  | nil => intro s; rfl
  | cons b data ih =>
    intro s
    rw [List.foldl_cons, crc32c, BitVec.ofInt_toInt, ih, ← crcBytes_append]
    rfl

theorem crc32c_range (x : Int) (b : UInt8) : int32Min ≤ crc32c x b ∧ crc32c x b ≤ int32Max := by
  unfold crc32c
  generalize crcBytes (BitVec.ofInt 32 x) [b] = s
  have h1 := BitVec.le_toInt s
  have h2 := BitVec.toInt_lt (x := s)
  simp only [int32Min, int32Max]
  omega

end Wdt
