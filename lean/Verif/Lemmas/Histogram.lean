import Verif.Model.Histogram
import Mathlib.Tactic.Linarith
import Mathlib.Tactic.ByContra
import Mathlib.Tactic.FieldSimp
/-
Lemmas on counters and histograms.
-/
namespace Wdt

/-- A bound, 0 behind the last. -/
def bnd (j : Nat) : Int := bucketBounds.getD j 0

theorem bnd_zero : bnd 0 = 1 := rfl
theorem bnd_last : bnd 54 = 100000 := rfl
theorem histLast_eq : histLast = 55 := rfl

theorem bnd_succ {j : Nat} (h : j + 1 < 55) : bnd j < bnd (j + 1) := by
  have : ∀ j < 54, bnd j < bnd (j + 1) := by decide +kernel
  exact this j (by omega)

theorem bnd_lt {i j : Nat} (hij : i < j) (hj : j < 55) : bnd i < bnd j := by
  induction j with
  | zero => omega
  | succ j ih =>
    have h1 := bnd_succ (j := j) hj
    by_cases h : i = j
    · subst h; exact h1
    · have := ih (by omega) (by omega); omega

theorem bnd_pos {j : Nat} (hj : j < 55) : 1 ≤ bnd j := by
  rcases Nat.eq_zero_or_pos j with h | h
  · subst h; decide
  · have := bnd_lt h hj; rw [bnd_zero] at this; omega

theorem lookupAt_spec (n : Nat) (hn : n < 100000) :
    lookupAt n < 55 ∧ ∀ j < 55, j < lookupAt n ↔ bnd j ≤ n := by
  induction n with
  | zero =>
    have e : lookupAt 0 = 0 := by decide
    rw [e]
    refine ⟨by omega, fun j hj => ⟨fun h => by omega, fun h => ?_⟩⟩
    have := bnd_pos hj; omega
  | succ n ih =>
    obtain ⟨hk, hs⟩ := ih (by omega)
    have hup : (n : Int) < bnd (lookupAt n) := by
      by_contra hc
      have := (hs _ hk).2 (by omega)
      omega
    have e : lookupAt (n + 1) = if ((n + 1 : Nat) : Int) ≥ bnd (lookupAt n) then lookupAt n + 1 else lookupAt n := rfl
    by_cases hc : ((n + 1 : Nat) : Int) ≥ bnd (lookupAt n)
    · rw [e, if_pos hc]
      have hlt : lookupAt n + 1 < 55 := by
        by_contra hx
        have h54 : lookupAt n = 54 := by omega
        rw [h54, bnd_last] at hc
        omega
      refine ⟨hlt, fun j hj => ⟨fun h => ?_, fun h => ?_⟩⟩
      · rcases Nat.lt_or_ge j (lookupAt n) with h1 | h1
        · have := (hs j hj).1 h1; omega
        · have : j = lookupAt n := by omega
          subst this; exact hc
      · by_contra hx
        have := bnd_lt (i := lookupAt n) (j := j) (by omega) hj
        omega
    · rw [e, if_neg hc]
      refine ⟨hk, fun j hj => ⟨fun h => ?_, fun h => ?_⟩⟩
      · have := (hs j hj).1 h; omega
      · by_contra hx
        rcases Nat.eq_or_lt_of_le (Nat.le_of_not_lt hx) with h1 | h1
        · rw [← h1] at h; omega
        · have := bnd_lt h1 hj; omega

theorem le_tdiv_iff {x d b : Int} (hd : 0 < d) (hb : 1 ≤ b) : b ≤ x.tdiv d ↔ b * d ≤ x := by
  rcases Int.le_total 0 x with hx | hx
  · rw [Int.tdiv_eq_ediv_of_nonneg hx, Int.le_ediv_iff_mul_le hd]
  · have h1 : x.tdiv d ≤ 0 := by
      have : 0 ≤ (-x).tdiv d := Int.tdiv_nonneg (by omega) (by omega)
      rw [Int.neg_tdiv] at this; omega
    have h2 : 0 < b * d := Int.mul_pos (by omega) hd
    constructor
    · intro h; omega
    · intro h; omega

/-- The bound of a bucket in terms of values. -/
def vbnd (d o : Int) (j : Nat) : Int := bnd j * d + o

theorem vbnd_lt {d o : Int} (hd : 0 < d) {i j : Nat} (hij : i < j) (hj : j < 55) : vbnd d o i < vbnd d o j := by
  have := Int.mul_lt_mul_of_pos_right (bnd_lt hij hj) hd
  unfold vbnd; omega

theorem index_spec (h : Histo) (hd : 0 < h.divider) (v : Int) :
    ∃ k, h.index v = some k ∧ k < 56 ∧ ∀ j < 55, j < k ↔ vbnd h.divider h.offset j ≤ v := by
  have key : ∀ j < 55, bnd j ≤ (v - h.offset).tdiv h.divider ↔ vbnd h.divider h.offset j ≤ v := by
    intro j hj
    rw [le_tdiv_iff hd (bnd_pos hj)]; unfold vbnd; omega
  unfold Histo.index
  rw [if_neg (by omega)]
  generalize (v - h.offset).tdiv h.divider = s at key ⊢
  simp only
  by_cases h1 : s ≥ histLastValue
  · refine ⟨55, by rw [if_pos h1, histLast_eq], by omega, fun j hj => ⟨fun _ => (key j hj).1 ?_, fun _ => hj⟩⟩
    have h2 : bnd j ≤ 100000 := by
      rcases Nat.eq_or_lt_of_le (show j ≤ 54 by omega) with e | e
      · subst e; rw [bnd_last]
      · have := bnd_lt e (by omega); rw [bnd_last] at this; omega
    unfold histLastValue at h1; omega
  · rw [if_neg h1]
    unfold histLastValue at h1
    by_cases h2 : s ≥ histFirstValue
    · rw [if_pos h2]
      unfold histFirstValue at h2
      obtain ⟨h3, h4⟩ := lookupAt_spec s.toNat (by omega)
      refine ⟨_, rfl, by omega, fun j hj => ?_⟩
      rw [h4 j hj, ← key j hj]; omega
    · rw [if_neg h2]
      unfold histFirstValue at h2
      refine ⟨0, rfl, by omega, fun j hj => ⟨fun h => by omega, fun h => ?_⟩⟩
      have := (key j hj).2 h
      have := bnd_pos hj
      omega

/-- The value falls in the bucket `k`. -/
def InSlot (d o : Int) (k : Nat) (v : Int) : Prop :=
  (k = 0 ∨ vbnd d o (k - 1) ≤ v) ∧ (k = 55 ∨ v < vbnd d o k)

instance (d o : Int) (k : Nat) : DecidablePred (InSlot d o k) := fun _ => by unfold InSlot; infer_instance

theorem inSlot_iff {d o : Int} (hd : 0 < d) {k i : Nat} {v : Int} (hk : k < 56) (hi : i < 56)
    (hs : ∀ j < 55, j < k ↔ vbnd d o j ≤ v) : InSlot d o i v ↔ i = k := by
  unfold InSlot
  constructor
  · rintro ⟨h1, h2⟩
    have a : i ≤ k := by
      rcases h1 with h1 | h1
      · omega
      · by_cases hi0 : i = 0
        · omega
        · have := (hs (i - 1) (by omega)).2 h1; omega
    have b : k ≤ i := by
      rcases h2 with h2 | h2
      · omega
      · by_contra hc
        have := (hs i (by omega)).1 (by omega); omega
    omega
  · rintro rfl
    refine ⟨?_, ?_⟩
    · by_cases h0 : i = 0
      · exact .inl h0
      · exact .inr ((hs (i - 1) (by omega)).1 (by omega))
    · by_cases h5 : i = 55
      · exact .inl h5
      · refine .inr ?_
        by_contra hc
        have := (hs i (by omega)).2 (by omega); omega

/-- What a value adds to the sum of squares. -/
def sqOf (v : Int) : Int := if v > 2147483647 ∨ v < -2147483648 then 0 else v * v

/-- The counter says what was recorded. -/
structure CtrOf (vs : List Int) (c : Ctr) : Prop where
  count : c.count = vs.length
  sum : c.sum = vs.sum
  sumSq : c.sumSq = (vs.map sqOf).sum
  realMin : vs ≠ [] → c.realMin ∈ vs ∧ ∀ v ∈ vs, c.realMin ≤ v
  max : vs ≠ [] → c.max ∈ vs ∧ ∀ v ∈ vs, v ≤ c.max
  min : vs ≠ [] → c.min ∈ vs ∧ ∀ v ∈ vs, v ≠ 0 → c.min ≤ v ∧ c.min ≠ 0

theorem CtrOf.record {vs : List Int} {c : Ctr} (h : CtrOf vs c) (v : Int) : CtrOf (vs ++ [v]) (c.record v) := by
  obtain ⟨h1, h2, hq, h3, h4, h5⟩ := h
  rcases List.eq_nil_or_concat vs with rfl | ⟨_, _, rfl⟩
  · have hc : c.count = 0 := by simpa using h1
    have hs : c.sum = 0 := by simpa using h2
    have hq : c.sumSq = 0 := by simpa using hq
    unfold Ctr.record
    simp only [hc]
    refine ⟨by simp, by simp [hs], by simp [hq, sqOf], ?_, ?_, ?_⟩ <;> intro _ <;> simp
  · rename_i l x
    have hne : l.concat x ≠ [] := by simp
    generalize l.concat x = vs at *
    have hpos : c.count + 1 ≠ 1 := by
      have : 0 < vs.length := List.length_pos_iff.2 hne
      omega
    obtain ⟨a1, a2⟩ := h3 hne
    obtain ⟨b1, b2⟩ := h4 hne
    obtain ⟨c1, c2⟩ := h5 hne
    unfold Ctr.record
    simp only [if_neg hpos]
    refine ⟨by simp [h1], by simp [h2], by simp [hq, sqOf], fun _ => ?_, fun _ => ?_, fun _ => ?_⟩ <;> dsimp only
    · by_cases hv : v < c.realMin
      · rw [if_pos hv]
        refine ⟨by simp, fun w hw => ?_⟩
        rcases List.mem_append.1 hw with hw | hw
        · have := a2 w hw; omega
        · simp at hw; omega
      · rw [if_neg hv]
        refine ⟨List.mem_append_left _ a1, fun w hw => ?_⟩
        rcases List.mem_append.1 hw with hw | hw
        · exact a2 w hw
        · simp at hw; omega
    · by_cases hv : v > c.max
      · rw [if_pos hv]
        refine ⟨by simp, fun w hw => ?_⟩
        rcases List.mem_append.1 hw with hw | hw
        · have := b2 w hw; omega
        · simp at hw; omega
      · rw [if_neg hv]
        refine ⟨List.mem_append_left _ b1, fun w hw => ?_⟩
        rcases List.mem_append.1 hw with hw | hw
        · exact b2 w hw
        · simp at hw; omega
    · by_cases hv : v ≠ 0 ∧ (c.min = 0 ∨ v < c.min)
      · rw [if_pos hv]
        refine ⟨by simp, fun w hw hw0 => ?_⟩
        rcases List.mem_append.1 hw with hw | hw
        · obtain ⟨d1, d2⟩ := c2 w hw hw0
          refine ⟨?_, hv.1⟩
          rcases hv.2 with h | h
          · exact absurd h d2
          · omega
        · simp at hw; exact ⟨by omega, hv.1⟩
      · rw [if_neg hv]
        refine ⟨List.mem_append_left _ c1, fun w hw hw0 => ?_⟩
        rcases List.mem_append.1 hw with hw | hw
        · exact c2 w hw hw0
        · simp only [List.mem_singleton] at hw
          subst hw
          constructor
          · by_contra hc; exact hv ⟨hw0, .inr (by omega)⟩
          · intro h0; exact hv ⟨hw0, .inl h0⟩

/-- The histogram says what was recorded. -/
structure HistOf (d o : Int) (vs : List Int) (h : Histo) : Prop where
  divider : h.divider = d
  offset : h.offset = o
  length : h.data.length = 56
  data : ∀ k < 56, h.data.getD k 0 = (vs.countP fun v => decide (InSlot d o k v) : Nat)
  ctr : CtrOf vs h.ctr

theorem histOf_new (d o : Int) : HistOf d o [] { divider := d, offset := o } := by
  refine ⟨rfl, rfl, rfl, ?_, ⟨rfl, rfl, rfl, by simp, by simp, by simp⟩⟩
  intro k hk
  show (List.replicate 56 (0 : Int)).getD k 0 = 0
  have : ∀ k < 56, (List.replicate 56 (0 : Int)).getD k 0 = 0 := by decide
  exact this k hk

theorem getD_modify (l : List Int) (i k : Nat) (hi : i < l.length) :
    (l.modify i (· + 1)).getD k 0 = l.getD k 0 + if k = i then 1 else 0 := by
  simp only [List.getD_eq_getElem?_getD, List.getElem?_modify]
  by_cases h : k = i
  · subst h
    simp [List.getElem?_eq_getElem hi]
  · have h' : ¬ i = k := fun x => h x.symm
    simp [h, h']

theorem HistOf.record {d o : Int} (hd : 0 < d) {vs : List Int} {h : Histo} (H : HistOf d o vs h) (v : Int) :
    ∃ h', h.record v = .ok h' ∧ HistOf d o (vs ++ [v]) h' := by
  obtain ⟨k, e, hk, hs⟩ := index_spec h (by rw [H.divider]; exact hd) v
  rw [H.divider, H.offset] at hs
  refine ⟨{ h with ctr := h.ctr.record v, data := h.data.modify k (· + 1) }, by unfold Histo.record; rw [e], H.divider, H.offset, by simp [H.length], fun i hi => ?_, H.ctr.record v⟩
  show (h.data.modify k (· + 1)).getD i 0 = _
  rw [getD_modify _ _ _ (by rw [H.length]; exact hk), H.data i hi, List.countP_append]
  have hb := inSlot_iff hd hk hi hs
  by_cases hik : i = k
  · rw [if_pos hik]; simp [hb.2 hik]
  · rw [if_neg hik]
    have : ¬ InSlot d o i v := fun h => hik (hb.1 h)
    simp [this]

theorem HistOf.recordAll {d o : Int} (hd : 0 < d) (vs : List Int) :
    ∀ {us : List Int} {h : Histo}, HistOf d o us h → ∃ h', h.recordAll vs = .ok h' ∧ HistOf d o (us ++ vs) h' := by
  induction vs with
  | nil => intro us h H; exact ⟨h, rfl, by rw [List.append_nil]; exact H⟩
  | cons v vs ih =>
    intro us h H
    obtain ⟨h1, e1, H1⟩ := H.record hd v
    obtain ⟨h2, e2, H2⟩ := ih H1
    refine ⟨h2, ?_, by simpa using H2⟩
    rw [Histo.recordAll, e1]; exact e2

theorem CtrOf.unique {vs : List Int} (hne : vs ≠ []) {c c' : Ctr} (h : CtrOf vs c) (h' : CtrOf vs c') : c = c' := by
  have e1 : c.count = c'.count := by rw [h.count, h'.count]
  have e2 : c.sum = c'.sum := by rw [h.sum, h'.sum]
  have e3 : c.sumSq = c'.sumSq := by rw [h.sumSq, h'.sumSq]
  have e4 : c.realMin = c'.realMin := by
    obtain ⟨a, b⟩ := h.realMin hne
    obtain ⟨a', b'⟩ := h'.realMin hne
    have := b _ a'; have := b' _ a; omega
  have e5 : c.max = c'.max := by
    obtain ⟨a, b⟩ := h.max hne
    obtain ⟨a', b'⟩ := h'.max hne
    have := b _ a'; have := b' _ a; omega
  have e6 : c.min = c'.min := by
    obtain ⟨a, b⟩ := h.min hne
    obtain ⟨a', b'⟩ := h'.min hne
    by_cases h0 : c.min = 0
    · by_cases h0' : c'.min = 0
      · omega
      · exact absurd h0 (b _ a' h0').2
    · by_cases h0' : c'.min = 0
      · exact absurd h0' (b' _ a h0).2
      · have := (b _ a' h0').1; have := (b' _ a h0).1; omega
  cases c; cases c'; simp_all

theorem HistOf.unique {d o : Int} {vs : List Int} (hne : vs ≠ []) {h h' : Histo} (H : HistOf d o vs h) (H' : HistOf d o vs h') : h = h' := by
  have e1 := CtrOf.unique hne H.ctr H'.ctr
  have e2 : h.data = h'.data := by
    apply List.ext_getElem (by rw [H.length, H'.length])
    intro i h1 h2
    have a := H.data i (by rw [← H.length]; exact h1)
    have b := H'.data i (by rw [← H.length]; exact h1)
    rw [List.getD_eq_getElem?_getD, List.getElem?_eq_getElem h1] at a
    rw [List.getD_eq_getElem?_getD, List.getElem?_eq_getElem h2] at b
    simp only [Option.getD_some] at a b
    rw [a, b]
  have e3 := H.divider
  have e4 := H'.divider
  have e5 := H.offset
  have e6 := H'.offset
  cases h; cases h'; simp_all

theorem getD_zipWith (a b : List Int) (h : a.length = b.length) (k : Nat) :
    (List.zipWith (· + ·) a b).getD k 0 = a.getD k 0 + b.getD k 0 := by
  simp only [List.getD_eq_getElem?_getD, List.getElem?_zipWith]
  by_cases hk : k < a.length
  · rw [List.getElem?_eq_getElem hk, List.getElem?_eq_getElem (by omega)]; rfl
  · rw [List.getElem?_eq_none (by omega), List.getElem?_eq_none (by omega)]; rfl

theorem CtrOf.merge {vs us : List Int} {a b : Ctr} (ha : CtrOf vs a) (hb : CtrOf us b) (hv : ∃ v ∈ vs, v ≠ 0) (hu : us ≠ [])
    (hm : ∀ u ∈ us, ∃ v ∈ vs, v ≤ u) : CtrOf (vs ++ us) (a.merge b) := by
  obtain ⟨v0, hv0, hvn⟩ := hv
  have hne : vs ≠ [] := by rintro rfl; simp at hv0
  obtain ⟨a1, a2⟩ := ha.realMin hne
  obtain ⟨a3, a4⟩ := ha.max hne
  obtain ⟨a5, a6⟩ := ha.min hne
  obtain ⟨b3, b4⟩ := hb.max hu
  obtain ⟨b5, b6⟩ := hb.min hu
  have hn0 : a.min ≠ 0 := (a6 v0 hv0 hvn).2
  unfold Ctr.merge
  refine ⟨?_, ?_, ?_, fun _ => ?_, fun _ => ?_, fun _ => ?_⟩ <;> dsimp only
  · rw [ha.count, hb.count]; simp
  · rw [ha.sum, hb.sum]; simp
  · rw [ha.sumSq, hb.sumSq]; simp
  · refine ⟨List.mem_append_left _ a1, fun w hw => ?_⟩
    rcases List.mem_append.1 hw with hw | hw
    · exact a2 w hw
    · obtain ⟨x, hx, hxw⟩ := hm w hw
      have := a2 x hx; omega
  · by_cases hc : b.max > a.max
    · rw [if_pos hc]
      refine ⟨List.mem_append_right _ b3, fun w hw => ?_⟩
      rcases List.mem_append.1 hw with hw | hw
      · have := a4 w hw; omega
      · exact b4 w hw
    · rw [if_neg hc]
      refine ⟨List.mem_append_left _ a3, fun w hw => ?_⟩
      rcases List.mem_append.1 hw with hw | hw
      · exact a4 w hw
      · have := b4 w hw; omega
  · by_cases hc : b.min ≠ 0 ∧ b.min < a.min
    · rw [if_pos hc]
      refine ⟨List.mem_append_right _ b5, fun w hw hw0 => ?_⟩
      rcases List.mem_append.1 hw with hw | hw
      · have := (a6 w hw hw0).1; exact ⟨by omega, hc.1⟩
      · exact b6 w hw hw0
    · rw [if_neg hc]
      refine ⟨List.mem_append_left _ a5, fun w hw hw0 => ?_⟩
      rcases List.mem_append.1 hw with hw | hw
      · exact a6 w hw hw0
      · obtain ⟨c1, c2⟩ := b6 w hw hw0
        refine ⟨?_, hn0⟩
        have : ¬ b.min < a.min := fun h => hc ⟨c2, h⟩
        omega

theorem HistOf.merge {d o : Int} {vs us : List Int} {a b : Histo} (ha : HistOf d o vs a) (hb : HistOf d o us b)
    (hv : ∃ v ∈ vs, v ≠ 0) (hu : us ≠ []) (hm : ∀ u ∈ us, ∃ v ∈ vs, v ≤ u) : HistOf d o (vs ++ us) (a.merge b) := by
  refine ⟨ha.divider, ha.offset, ?_, fun k hk => ?_, ha.ctr.merge hb.ctr hv hu hm⟩
  · show (List.zipWith _ a.data b.data).length = 56
    rw [List.length_zipWith, ha.length, hb.length]; rfl
  · show (List.zipWith (· + ·) a.data b.data).getD k 0 = _
    rw [getD_zipWith _ _ (by rw [ha.length, hb.length]), ha.data k hk, hb.data k hk, List.countP_append]
    push_cast; rfl

/-- Number of values below the bound `j`. -/
def below (d o : Int) (vs : List Int) (j : Nat) : Nat := vs.countP fun v => decide (v < vbnd d o j)

theorem below_zero (d o : Int) (vs : List Int) : below d o vs 0 = vs.countP fun v => decide (InSlot d o 0 v) := by
  unfold below InSlot
  congr 1; funext v; simp

theorem below_succ {d o : Int} (hd : 0 < d) (vs : List Int) {j : Nat} (hj : j + 1 < 55) :
    below d o vs (j + 1) = below d o vs j + vs.countP fun v => decide (InSlot d o (j + 1) v) := by
  have hlt := vbnd_lt (o := o) hd (show j < j + 1 by omega) hj
  unfold below
  induction vs with
  | nil => rfl
  | cons v vs ih =>
    simp only [List.countP_cons, ih, decide_eq_true_eq]
    have e : InSlot d o (j + 1) v ↔ vbnd d o j ≤ v ∧ v < vbnd d o (j + 1) := by
      unfold InSlot
      simp only [Nat.add_one_sub_one]
      constructor
      · rintro ⟨h1, h2⟩; exact ⟨by rcases h1 with h | h; · omega
                                   · exact h, by rcases h2 with h | h; · omega
                                                 · exact h⟩
      · rintro ⟨h1, h2⟩; exact ⟨.inr h1, .inr h2⟩
    simp only [e]
    by_cases a : v < vbnd d o j
    · have b : v < vbnd d o (j + 1) := by omega
      have c : ¬ (vbnd d o j ≤ v ∧ v < vbnd d o (j + 1)) := by omega
      rw [if_pos a, if_pos b, if_neg c]; omega
    · by_cases b : v < vbnd d o (j + 1)
      · have c : vbnd d o j ≤ v ∧ v < vbnd d o (j + 1) := by omega
        rw [if_neg a, if_pos b, if_pos c]; omega
      · have c : ¬ (vbnd d o j ≤ v ∧ v < vbnd d o (j + 1)) := by omega
        rw [if_neg a, if_neg b, if_neg c]; omega

theorem below_mono {d o : Int} (vs : List Int) {i j : Nat} (h : vbnd d o i ≤ vbnd d o j) : below d o vs i ≤ below d o vs j := by
  unfold below
  apply List.countP_mono_left
  intro v _ hv
  simp only [decide_eq_true_eq] at hv ⊢
  omega

/-- Percentage of the values below the bound `j`. -/
def pct (d o : Int) (vs : List Int) (j : Nat) : ℚ := 100 * (below d o vs j : ℚ) / vs.length

/-- Where the loop of `calcPercentile` stops. -/
structure PercStop (d o : Int) (vs : List Int) (mx : Int) (p : ℚ) (j : Nat) (r : PercAt) : Prop where
  le : j ≤ 55
  before : ∀ k < j, vbnd d o k ≤ mx ∧ pct d o vs k < p
  prev : r.prev = if j = 0 then 0 else vbnd d o (j - 1)
  prevPerc : r.prevPerc = if j = 0 then 0 else pct d o vs (j - 1)
  here : (j < 55 ∧ vbnd d o j ≤ mx ∧ p ≤ pct d o vs j ∧ r.cur = vbnd d o j ∧ r.perc = pct d o vs j) ∨
    ((j = 55 ∨ mx < vbnd d o j) ∧ r.cur = mx ∧ r.perc = 100)

theorem bnd_drop {i : Nat} (hi : i < 55) (data : List Int) (hl : data.length = 56) :
    (bucketBounds.zip data).drop i = (bnd i, data.getD i 0) :: (bucketBounds.zip data).drop (i + 1) := by
  have h1 : bucketBounds.length = 55 := rfl
  have h2 : i < (bucketBounds.zip data).length := by rw [List.length_zip]; omega
  rw [List.drop_eq_getElem_cons h2, List.getElem_zip]
  unfold bnd
  rw [List.getD_eq_getElem?_getD, List.getD_eq_getElem?_getD, List.getElem?_eq_getElem (by omega),
    List.getElem?_eq_getElem (by omega)]
  rfl

theorem percLoop_stop {d o : Int} (hd : 0 < d) {vs : List Int} {h : Histo} (H : HistOf d o vs h) (p : ℚ) (n : Nat) :
    ∀ (i : Nat) (prev : Int) (prevPerc : ℚ) (total : Int), i + n = 55 →
      (∀ k < i, vbnd d o k ≤ h.ctr.max ∧ pct d o vs k < p) →
      prev = (if i = 0 then 0 else vbnd d o (i - 1)) → prevPerc = (if i = 0 then 0 else pct d o vs (i - 1)) →
      total = (if i = 0 then 0 else ((below d o vs (i - 1) : Nat) : Int)) →
      ∃ j, PercStop d o vs h.ctr.max p j (h.percLoop p ((bucketBounds.zip h.data).drop i) prev prevPerc total) := by
  induction n with
  | zero =>
    intro i prev prevPerc total hi hb h1 h2 h3
    have : i = 55 := by omega
    subst this
    have e : (bucketBounds.zip h.data).drop 55 = [] := by
      apply List.drop_eq_nil_of_le
      rw [List.length_zip, H.length]; decide
    rw [e]
    exact ⟨55, le_refl _, hb, h1, h2, .inr ⟨.inl rfl, rfl, rfl⟩⟩
  | succ n ih =>
    intro i prev prevPerc total hi hb h1 h2 h3
    rw [bnd_drop (by omega) _ H.length, Histo.percLoop]
    have hcur : bnd i * h.divider + h.offset = vbnd d o i := by rw [H.divider, H.offset]; rfl
    have htot : total + h.data.getD i 0 = ((below d o vs i : Nat) : Int) := by
      rw [H.data i (by omega), h3]
      by_cases h0 : i = 0
      · subst h0; rw [below_zero]; simp
      · rw [if_neg h0]
        obtain ⟨k, rfl⟩ : ∃ k, i = k + 1 := ⟨i - 1, by omega⟩
        rw [below_succ hd vs (by omega)]; push_cast; simp
    have hpc : (100 : ℚ) * ((total + h.data.getD i 0 : Int) : ℚ) / ((h.ctr.count : Int) : ℚ) = pct d o vs i := by
      rw [htot, H.ctr.count]; unfold pct; push_cast; rfl
    simp only [hcur, hpc]
    by_cases c1 : vbnd d o i > h.ctr.max
    · rw [if_pos c1]
      exact ⟨i, by omega, hb, h1, h2, .inr ⟨.inr c1, rfl, rfl⟩⟩
    · rw [if_neg c1]
      by_cases c2 : pct d o vs i ≥ p
      · rw [if_pos c2]
        exact ⟨i, by omega, hb, h1, h2, .inl ⟨by omega, by omega, c2, rfl, rfl⟩⟩
      · rw [if_neg c2]
        refine ih (i + 1) _ _ _ (by omega) ?_ (by simp) (by simp) (by rw [htot]; simp)
        intro k hk
        rcases Nat.lt_or_ge k i with hk' | hk'
        · exact hb k hk'
        · have : k = i := by omega
          subst this; exact ⟨by omega, by linarith⟩

/-- The lower end of the interpolation. -/
def PercAt.lo (r : PercAt) (mn : Int) : Int := if r.prev < mn then mn else r.prev

/-- What `calcPercentile` returns. -/
def PercAt.value (r : PercAt) (mn : Int) (p : ℚ) : ℚ :=
  r.lo mn + (p - r.prevPerc) * (r.cur - r.lo mn) / (r.perc - r.prevPerc)

/-- Everything that is needed about where the loop stops. -/
structure PercGood (mn mx : Int) (p : ℚ) (r : PercAt) : Prop where
  lo : mn ≤ r.lo mn
  le : r.lo mn ≤ r.cur
  hi : r.cur ≤ mx
  gt : r.prevPerc < p
  ge : p ≤ r.perc

theorem PercGood.value_ge {mn mx : Int} {p : ℚ} {r : PercAt} (g : PercGood mn mx p r) : (r.lo mn : ℚ) ≤ r.value mn p := by
  unfold PercAt.value
  have h1 : (0 : ℚ) ≤ (r.cur : ℚ) - r.lo mn := by
    have : ((r.lo mn : Int) : ℚ) ≤ ((r.cur : Int) : ℚ) := by exact_mod_cast g.le
    linarith
  have h2 := g.gt
  have h3 := g.ge
  have : 0 ≤ (p - r.prevPerc) * (r.cur - r.lo mn) / (r.perc - r.prevPerc) :=
    div_nonneg (mul_nonneg (by linarith) h1) (by linarith)
  linarith

theorem PercGood.value_le {mn mx : Int} {p : ℚ} {r : PercAt} (g : PercGood mn mx p r) : r.value mn p ≤ r.cur := by
  unfold PercAt.value
  have h1 : (0 : ℚ) ≤ (r.cur : ℚ) - r.lo mn := by
    have : ((r.lo mn : Int) : ℚ) ≤ ((r.cur : Int) : ℚ) := by exact_mod_cast g.le
    linarith
  have h2 := g.gt
  have h3 := g.ge
  have : (p - r.prevPerc) * (r.cur - r.lo mn) / (r.perc - r.prevPerc) ≤ r.cur - r.lo mn := by
    rw [div_le_iff₀ (by linarith), mul_comm]
    exact mul_le_mul_of_nonneg_left (by linarith) h1
  linarith

theorem pct_lt_iff {d o : Int} {vs : List Int} (hne : vs ≠ []) (j : Nat) (p : ℚ) :
    pct d o vs j < p ↔ 100 * (below d o vs j : ℚ) < p * vs.length := by
  unfold pct
  have : (0 : ℚ) < vs.length := by exact_mod_cast List.length_pos_iff.2 hne
  rw [div_lt_iff₀ this]

theorem PercStop.good {d o : Int} (hd : 0 < d) {vs : List Int} (hne : vs ≠ []) {mn mx : Int} {p : ℚ} (hp0 : 0 < p) (hp : p < 100)
    (hmn : ∀ v ∈ vs, mn ≤ v) (hmx : mn ≤ mx) (hz : 0 ≤ mx) (ho : 0 ≤ d + o)
    {j : Nat} {r : PercAt} (s : PercStop d o vs mx p j r) : PercGood mn mx p r := by
  have hlo : mn ≤ r.lo mn := by unfold PercAt.lo; split <;> omega
  have hgt : r.prevPerc < p := by
    rw [s.prevPerc]
    by_cases h0 : j = 0
    · rw [if_pos h0]; exact hp0
    · rw [if_neg h0]; exact (s.before (j - 1) (by omega)).2
  have hge : p ≤ r.perc := by
    rcases s.here with ⟨_, _, h, _, e⟩ | ⟨_, _, e⟩
    · rw [e]; exact h
    · rw [e]; linarith
  have hcur : r.cur ≤ mx := by
    rcases s.here with ⟨_, h, _, e, _⟩ | ⟨_, e, _⟩
    · rw [e]; exact h
    · rw [e]
  have hprev : r.prev ≤ r.cur := by
    rw [s.prev]
    rcases s.here with ⟨hj, h, hq, e, _⟩ | ⟨_, e, _⟩
    · rw [e]
      by_cases h0 : j = 0
      · rw [if_pos h0, h0]; unfold vbnd; rw [bnd_zero]; omega
      · rw [if_neg h0]; exact le_of_lt (vbnd_lt hd (by omega) hj)
    · rw [e]
      by_cases h0 : j = 0
      · rw [if_pos h0]; exact hz
      · rw [if_neg h0]; exact (s.before (j - 1) (by omega)).1
  have hmc : mn ≤ r.cur := by
    rcases s.here with ⟨hj, h, hq, e, _⟩ | ⟨_, e, _⟩
    · rw [e]
      have h1 : ¬ pct d o vs j < p := by linarith
      rw [pct_lt_iff hne] at h1
      have h2 : 0 < below d o vs j := by
        by_contra hc
        have : below d o vs j = 0 := by omega
        rw [this] at h1
        apply h1
        have : (0 : ℚ) < vs.length := by exact_mod_cast List.length_pos_iff.2 hne
        have := mul_pos hp0 this
        simpa using this
      obtain ⟨v, hv, hlt⟩ := List.countP_pos_iff.1 h2
      have := hmn v hv
      simp only [decide_eq_true_eq] at hlt
      omega
    · rw [e]; exact hmx
  refine ⟨hlo, ?_, hcur, hgt, hge⟩
  unfold PercAt.lo; split <;> omega

/-- The bounds of the buckets never separate the computed percentile from a true one. -/
theorem PercStop.bucket {d o : Int} (hd : 0 < d) {vs : List Int} (hne : vs ≠ []) {mn mx : Int} {p : ℚ}
    {j : Nat} {r : PercAt} (s : PercStop d o vs mx p j r) (g : PercGood mn mx p r) (hq : ∀ v ∈ vs, v ≤ mx) {q : Int} (hqm : q ∈ vs)
    (h1 : 100 * ((vs.countP fun v => decide (v < q) : Nat) : ℚ) < p * vs.length)
    (h2 : p * vs.length ≤ 100 * ((vs.countP fun v => decide (v ≤ q) : Nat) : ℚ)) {i : Nat} (hi : i < 55) :
    (q < vbnd d o i → r.value mn p ≤ vbnd d o i) ∧ (vbnd d o i ≤ q → (vbnd d o i : ℚ) ≤ r.value mn p) := by
  constructor
  · intro hlt
    have hb : ¬ pct d o vs i < p := by
      rw [pct_lt_iff hne]
      have : (vs.countP fun v => decide (v ≤ q)) ≤ below d o vs i := by
        unfold below
        apply List.countP_mono_left
        intro v _ hv
        simp only [decide_eq_true_eq] at hv ⊢
        omega
      have : ((vs.countP fun v => decide (v ≤ q) : Nat) : ℚ) ≤ (below d o vs i : ℚ) := by exact_mod_cast this
      linarith
    have hji : j ≤ i := by
      by_contra hc
      exact hb (s.before i (by omega)).2
    have hc : r.cur ≤ vbnd d o i := by
      rcases s.here with ⟨hj, h, _, e, _⟩ | ⟨h, e, _⟩
      · rw [e]
        rcases Nat.eq_or_lt_of_le hji with e | e
        · subst e; exact le_refl _
        · exact le_of_lt (vbnd_lt hd e hi)
      · rw [e]
        rcases h with h | h
        · omega
        · rcases Nat.eq_or_lt_of_le hji with e | e
          · subst e; omega
          · have := vbnd_lt (o := o) hd e hi; omega
    have hc' : ((r.cur : Int) : ℚ) ≤ ((vbnd d o i : Int) : ℚ) := by exact_mod_cast hc
    exact le_trans g.value_le hc'
  · intro hle
    have hb : pct d o vs i < p := by
      rw [pct_lt_iff hne]
      have : below d o vs i ≤ vs.countP fun v => decide (v < q) := by
        unfold below
        apply List.countP_mono_left
        intro v _ hv
        simp only [decide_eq_true_eq] at hv ⊢
        omega
      have : (below d o vs i : ℚ) ≤ ((vs.countP fun v => decide (v < q) : Nat) : ℚ) := by exact_mod_cast this
      linarith
    have hmx := hq q hqm
    have hij : i < j := by
      by_contra hc
      have hj : j ≤ i := by omega
      have hv : vbnd d o j ≤ vbnd d o i := by
        rcases Nat.eq_or_lt_of_le hj with e | e
        · subst e; exact le_refl _
        · exact le_of_lt (vbnd_lt hd e hi)
      rcases s.here with ⟨_, _, h, _, _⟩ | ⟨h, _, _⟩
      · have hm := below_mono vs hv
        have : pct d o vs j < p := by
          rw [pct_lt_iff hne] at hb ⊢
          have : (below d o vs j : ℚ) ≤ (below d o vs i : ℚ) := by exact_mod_cast hm
          linarith
        linarith
      · rcases h with h | h <;> omega
    have hp : vbnd d o i ≤ r.prev := by
      rw [s.prev, if_neg (by omega)]
      rcases Nat.eq_or_lt_of_le (show i ≤ j - 1 by omega) with e | e
      · rw [e]
      · exact le_of_lt (vbnd_lt hd e (by have := s.le; omega))
    have hl : vbnd d o i ≤ r.lo mn := by unfold PercAt.lo; split <;> omega
    have hl' : ((vbnd d o i : Int) : ℚ) ≤ ((r.lo mn : Int) : ℚ) := by exact_mod_cast hl
    exact le_trans hl' g.value_ge

theorem PercStop.mono {d o : Int} (hd : 0 < d) {vs : List Int} {mn mx : Int} {p p' : ℚ} (hpp : p ≤ p')
    {j j' : Nat} {r r' : PercAt} (s : PercStop d o vs mx p j r) (s' : PercStop d o vs mx p' j' r')
    (g : PercGood mn mx p r) (g' : PercGood mn mx p' r') : r.value mn p ≤ r'.value mn p' := by
  have hjj : j ≤ j' := by
    by_contra hc
    obtain ⟨a, b⟩ := s.before j' (by omega)
    have := s.le
    rcases s'.here with ⟨_, _, h, _, _⟩ | ⟨h, _, _⟩
    · linarith
    · rcases h with h | h <;> omega
  rcases Nat.eq_or_lt_of_le hjj with e | e
  · subst e
    have e1 : r.prev = r'.prev := by rw [s.prev, s'.prev]
    have e2 : r.prevPerc = r'.prevPerc := by rw [s.prevPerc, s'.prevPerc]
    have e34 : r.cur = r'.cur ∧ r.perc = r'.perc := by
      rcases s.here with ⟨a1, a2, a3, a4, a5⟩ | ⟨a1, a2, a3⟩ <;> rcases s'.here with ⟨b1, b2, b3, b4, b5⟩ | ⟨b1, b2, b3⟩
      · exact ⟨by rw [a4, b4], by rw [a5, b5]⟩
      · rcases b1 with h | h <;> omega
      · rcases a1 with h | h <;> omega
      · exact ⟨by rw [a2, b2], by rw [a3, b3]⟩
    have el : r.lo mn = r'.lo mn := by unfold PercAt.lo; rw [e1]
    unfold PercAt.value
    rw [el, e2, e34.1, e34.2]
    have h1 : (0 : ℚ) ≤ (r'.cur : ℚ) - r'.lo mn := by
      have : ((r'.lo mn : Int) : ℚ) ≤ ((r'.cur : Int) : ℚ) := by exact_mod_cast g'.le
      linarith
    have h2 := g'.gt
    have h3 := g'.ge
    have : (p - r'.prevPerc) * (r'.cur - r'.lo mn) / (r'.perc - r'.prevPerc) ≤
        (p' - r'.prevPerc) * (r'.cur - r'.lo mn) / (r'.perc - r'.prevPerc) := by
      apply div_le_div_of_nonneg_right _ (by linarith)
      exact mul_le_mul_of_nonneg_right (by linarith) h1
    linarith
  · obtain ⟨a, b⟩ := s'.before j e
    have hj' := s'.le
    have hc : r.cur = vbnd d o j := by
      rcases s.here with ⟨_, _, _, h, _⟩ | ⟨h, _, _⟩
      · exact h
      · rcases h with h | h <;> omega
    have hp : r.cur ≤ r'.prev := by
      rw [hc, s'.prev, if_neg (by omega)]
      rcases Nat.eq_or_lt_of_le (show j ≤ j' - 1 by omega) with e | e
      · rw [e]
      · exact le_of_lt (vbnd_lt hd e (by omega))
    have hl : r.cur ≤ r'.lo mn := by unfold PercAt.lo; split <;> omega
    have hl' : ((r.cur : Int) : ℚ) ≤ ((r'.lo mn : Int) : ℚ) := by exact_mod_cast hl
    exact le_trans g.value_le (le_trans hl' g'.value_ge)

end Wdt
