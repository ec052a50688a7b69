import Verif.Model.Chunks
import Mathlib.Tactic.ByContra
import Mathlib.Data.List.Basic
/-
C13, C14, C15: intervals of received bytes and blocks to send.

Specification vocabulary: byte positions are integers; a list of intervals
covers position `p` if one of them contains it.
-/
namespace Wdt

/-- Position `p` lies in the interval (end exclusive). -/
def Interval.Has (i : Interval) (p : Int) : Prop := i.start ≤ p ∧ p < i.stop

/-- Position `p` is covered by one of the intervals. -/
def Covered (l : List Interval) (p : Int) : Prop := ∃ i ∈ l, i.Has p

/-- Sorted, pairwise disjoint and not even adjacent. -/
def Separated (l : List Interval) : Prop := l.Pairwise fun a b => a.stop < b.start

/-- Intervals as the constructor makes them. -/
def Valid (l : List Interval) : Prop := ∀ i ∈ l, i.start ≤ i.stop

theorem sortIntervals_isSort (l : List Interval) : IsSortOf (sortIntervals l) l := by
  refine ⟨List.mergeSort_perm l _, ?_⟩
  have h := List.pairwise_mergeSort (le := fun a b : Interval => decide (a.start ≤ b.start))
    (by intro a b c; simp; omega) (by intro a b; simp; omega) l
  exact h.imp (by intro a b hab; simpa using hab)

/-! ## C13 -/

theorem mergeLoop_covered (cs : List Interval) : ∀ (cur : Interval), cur.start ≤ cur.stop →
    (∀ c ∈ cs, cur.start ≤ c.start ∧ c.start ≤ c.stop) → cs.Pairwise (fun a b => a.start ≤ b.start) →
    ∀ p, Covered (mergeLoop cur cs) p ↔ Covered (cur :: cs) p := by
  induction cs with
  | nil => intro cur _ _ _ p; rfl
  | cons c cs ih =>
    intro cur hcur hall hs p
    rw [List.pairwise_cons] at hs
    unfold mergeLoop
    split
    · have := ih c (hall c (by simp)).2 (fun d hd => ⟨hs.1 d hd, (hall d (by simp [hd])).2⟩) hs.2 p
      unfold Covered at *
      simp only [List.mem_cons, exists_eq_or_imp] at *
      rw [this]
    · have h := ih { cur with stop := max cur.stop c.stop } (by simp only; omega)
        (fun d hd => ⟨(hall d (by simp [hd])).1, (hall d (by simp [hd])).2⟩) hs.2 p
      have hc := hall c (by simp)
      unfold Covered at *
      simp only [List.mem_cons, exists_eq_or_imp] at *
      rw [h]
      unfold Interval.Has
      simp only
      constructor
      · rintro (h | h)
        · by_cases hp : p < cur.stop
          · exact Or.inl ⟨h.1, hp⟩
          · exact Or.inr (Or.inl ⟨by omega, by omega⟩)
        · exact Or.inr (Or.inr h)
      · rintro (h | h | h)
        · exact Or.inl ⟨h.1, by omega⟩
        · exact Or.inl ⟨by omega, by omega⟩
        · exact Or.inr h

theorem mergeLoop_shape (cs : List Interval) : ∀ (cur : Interval), cur.start ≤ cur.stop →
    (∀ c ∈ cs, c.start ≤ c.stop) →
    Separated (mergeLoop cur cs) ∧ Valid (mergeLoop cur cs) ∧
      ∃ first rest, mergeLoop cur cs = first :: rest ∧ first.start = cur.start := by
  induction cs with
  | nil =>
    intro cur hcur _
    unfold mergeLoop
    refine ⟨List.pairwise_singleton _ _, ?_, ⟨cur, [], rfl, rfl⟩⟩
    intro i hi
    rw [List.mem_singleton] at hi
    rw [hi]; exact hcur
  | cons c cs ih =>
    intro cur hcur hv
    have hv' : ∀ d ∈ cs, d.start ≤ d.stop := fun d hd => hv d (by simp [hd])
    unfold mergeLoop
    split
    · rename_i hgt
      obtain ⟨h1, h2, first, rest, h3, h4⟩ := ih c (hv c (by simp)) hv'
      refine ⟨?_, ?_, ⟨cur, _, rfl, rfl⟩⟩
      · unfold Separated at *
        rw [List.pairwise_cons]
        refine ⟨?_, h1⟩
        intro d hd
        rw [h3] at hd h1
        rw [List.pairwise_cons] at h1
        have hf : first.start ≤ first.stop := h2 first (by rw [h3]; simp)
        rcases List.mem_cons.1 hd with rfl | hd
        · omega
        · have := h1.1 d hd
          omega
      · intro i hi
        rcases List.mem_cons.1 hi with rfl | hi
        · exact hcur
        · exact h2 i hi
    · obtain ⟨h1, h2, h3⟩ := ih { cur with stop := max cur.stop c.stop } (by simp only; omega) hv'
      exact ⟨h1, h2, h3⟩

/-- Whatever order `std::sort` leaves equal starts in, merging keeps exactly the
covered positions. -/
theorem C13_merge_covers (l sorted : List Interval) (hv : Valid l) (hs : IsSortOf sorted l) (p : Int) :
    Covered (mergeSorted sorted) p ↔ Covered l p := by
  have hperm : Covered sorted p ↔ Covered l p := by
    unfold Covered
    simp only [hs.1.mem_iff]
  rw [← hperm]
  cases sorted with
  | nil => rfl
  | cons c cs =>
    have hv' : ∀ i ∈ c :: cs, i.start ≤ i.stop := fun i hi => hv i (hs.1.mem_iff.1 hi)
    have h2 := hs.2
    rw [List.pairwise_cons] at h2
    exact mergeLoop_covered cs c (hv' c (by simp))
      (fun d hd => ⟨h2.1 d hd, hv' d (by simp [hd])⟩) h2.2 p

/-- The result is sorted, disjoint and non-adjacent. -/
theorem C13_merge_separated (l sorted : List Interval) (hv : Valid l) (hs : IsSortOf sorted l) :
    Separated (mergeSorted sorted) ∧ Valid (mergeSorted sorted) := by
  cases sorted with
  | nil => exact ⟨List.Pairwise.nil, by intro i hi; cases hi⟩
  | cons c cs =>
    have hv' : ∀ i ∈ c :: cs, i.start ≤ i.stop := fun i hi => hv i (hs.1.mem_iff.1 hi)
    obtain ⟨h1, h2, _⟩ := mergeLoop_shape cs c (hv' c (by simp)) (fun d hd => hv' d (by simp [hd]))
    exact ⟨h1, h2⟩

/-- Two separated lists of non-empty intervals with the same positions are
equal, hence the merged list does not depend on the order in which ranges were
recorded (empty ranges aside). -/
theorem separated_unique : ∀ (a b : List Interval), Separated a → Separated b →
    (∀ i ∈ a, i.start < i.stop) → (∀ i ∈ b, i.start < i.stop) →
    (∀ p, Covered a p ↔ Covered b p) → a = b := by
  intro a
  induction a with
  | nil =>
    intro b _ _ _ hb h
    cases b with
    | nil => rfl
    | cons y ys =>
      exfalso
      have hy := hb y (by simp)
      obtain ⟨i, hi, _⟩ := (h y.start).2 ⟨y, by simp, by unfold Interval.Has; omega⟩
      cases hi
  | cons x xs ih =>
    intro b ha hb hna hnb h
    cases b with
    | nil =>
      exfalso
      have hx := hna x (by simp)
      obtain ⟨i, hi, _⟩ := (h x.start).1 ⟨x, by simp, by unfold Interval.Has; omega⟩
      cases hi
    | cons y ys =>
      unfold Separated at ha hb
      rw [List.pairwise_cons] at ha hb
      have hx := hna x (by simp)
      have hy := hnb y (by simp)
      -- first starts agree
      have hstart : x.start = y.start := by
        obtain ⟨i, hi, hi2⟩ := (h x.start).1 ⟨x, by simp, by unfold Interval.Has; omega⟩
        obtain ⟨j, hj, hj2⟩ := (h y.start).2 ⟨y, by simp, by unfold Interval.Has; omega⟩
        unfold Interval.Has at hi2 hj2
        have hiy : y.start ≤ i.start := by
          rcases List.mem_cons.1 hi with rfl | hi
          · exact Int.le_refl _
          · have := hb.1 i hi; omega
        have hjx : x.start ≤ j.start := by
          rcases List.mem_cons.1 hj with rfl | hj
          · exact Int.le_refl _
          · have := ha.1 j hj; omega
        omega
      -- first ends agree
      have hstop : x.stop = y.stop := by
        by_contra hne
        rcases Int.lt_or_gt_of_ne hne with hlt | hgt
        · -- `x.stop` is covered by `y` but by no interval of `a`
          obtain ⟨i, hi, hi2⟩ := (h x.stop).2 ⟨y, by simp, by unfold Interval.Has; omega⟩
          unfold Interval.Has at hi2
          rcases List.mem_cons.1 hi with rfl | hi
          · omega
          · have := ha.1 i hi; omega
        · obtain ⟨i, hi, hi2⟩ := (h y.stop).1 ⟨x, by simp, by unfold Interval.Has; omega⟩
          unfold Interval.Has at hi2
          rcases List.mem_cons.1 hi with rfl | hi
          · omega
          · have := hb.1 i hi; omega
      have hxy : x = y := by
        cases x; cases y; simp only at hstart hstop; rw [hstart, hstop]
      subst hxy
      congr 1
      refine ih ys ha.2 hb.2 (fun i hi => hna i (by simp [hi])) (fun i hi => hnb i (by simp [hi])) ?_
      intro p
      have hp := h p
      unfold Covered at *
      simp only [List.mem_cons, exists_eq_or_imp] at hp
      constructor
      · rintro ⟨i, hi, hi2⟩
        have := ha.1 i hi
        rcases hp.1 (Or.inr ⟨i, hi, hi2⟩) with h1 | h1
        · unfold Interval.Has at *; omega
        · exact h1
      · rintro ⟨i, hi, hi2⟩
        have := hb.1 i hi
        rcases hp.2 (Or.inr ⟨i, hi, hi2⟩) with h1 | h1
        · unfold Interval.Has at *; omega
        · exact h1

theorem C13_order_irrelevant (l1 l2 s1 s2 : List Interval) (h : l1.Perm l2)
    (hv : ∀ i ∈ l1, i.start < i.stop) (h1 : IsSortOf s1 l1) (h2 : IsSortOf s2 l2) :
    mergeSorted s1 = mergeSorted s2 := by
  have hv1 : Valid l1 := fun i hi => Int.le_of_lt (hv i hi)
  have hv2 : Valid l2 := fun i hi => hv1 i (h.mem_iff.2 hi)
  have ne : ∀ (l s : List Interval), (∀ i ∈ l, i.start < i.stop) → IsSortOf s l →
      ∀ i ∈ mergeSorted s, i.start < i.stop := by
    intro l s hl hs
    have key : ∀ (cs : List Interval) (cur : Interval), cur.start < cur.stop →
        (∀ c ∈ cs, c.start < c.stop) → ∀ i ∈ mergeLoop cur cs, i.start < i.stop := by
      intro cs
      induction cs with
      | nil => intro cur hc _ i hi; unfold mergeLoop at hi; rw [List.mem_singleton] at hi; rw [hi]; exact hc
      | cons c cs ih =>
        intro cur hc hall i hi
        unfold mergeLoop at hi
        split at hi
        · rcases List.mem_cons.1 hi with rfl | hi
          · exact hc
          · exact ih c (hall c (by simp)) (fun d hd => hall d (by simp [hd])) i hi
        · exact ih _ (by simp only; omega) (fun d hd => hall d (by simp [hd])) i hi
    cases s with
    | nil => intro i hi; cases hi
    | cons c cs =>
      have : ∀ i ∈ c :: cs, i.start < i.stop := fun i hi => hl i (hs.1.mem_iff.1 hi)
      exact key cs c (this c (by simp)) (fun d hd => this d (by simp [hd]))
  refine separated_unique _ _ (C13_merge_separated l1 s1 hv1 h1).1 (C13_merge_separated l2 s2 hv2 h2).1
    (ne l1 s1 hv h1) (ne l2 s2 (fun i hi => hv i (h.mem_iff.2 hi)) h2) ?_
  intro p
  rw [C13_merge_covers l1 s1 hv1 h1 p, C13_merge_covers l2 s2 hv2 h2 p]
  unfold Covered
  simp only [h.mem_iff]

example : Valid [⟨5, 9⟩, ⟨0, 5⟩, ⟨20, 30⟩] ∧ mergeChunks [⟨5, 9⟩, ⟨0, 5⟩, ⟨20, 30⟩] = [⟨0, 9⟩, ⟨20, 30⟩] := by
  refine ⟨by unfold Valid; decide, ?_⟩
  unfold mergeChunks sortIntervals
  simp [List.mergeSort, List.MergeSort.Internal.splitInTwo, mergeSorted, mergeLoop]
  decide

/-! ## C14 -/

theorem remainingLoop_spec (size : Int) (cs : List Interval) : ∀ (cur : Int), Separated cs → Valid cs →
    (∀ c ∈ cs, cur ≤ c.start) →
    ∃ r, remainingLoop size cur cs = .ok r ∧
      (∀ p, cur ≤ p → p < size → (Covered r p ↔ ¬ Covered cs p)) ∧
      (∀ i ∈ r, cur ≤ i.start ∧ i.start < i.stop ∧ ∀ p, i.Has p → ¬ Covered cs p) ∧
      r.Pairwise (fun a b => a.stop ≤ b.start) ∧
      ((∀ c ∈ cs, c.stop ≤ size) → ∀ i ∈ r, i.stop ≤ size) := by
  induction cs with
  | nil =>
    intro cur _ _ _
    unfold remainingLoop mkInterval
    by_cases h : cur < size
    · rw [if_pos h, if_pos (by omega)]
      refine ⟨_, rfl, ?_, ?_, List.pairwise_singleton _ _, ?_⟩
      · intro p h1 h2
        unfold Covered Interval.Has
        simp; omega
      · intro i hi
        rw [List.mem_singleton] at hi
        subst hi
        refine ⟨Int.le_refl _, h, ?_⟩
        rintro p _ ⟨i, hi, _⟩; cases hi
      · intro _ i hi
        rw [List.mem_singleton] at hi
        subst hi
        exact Int.le_refl _
    · rw [if_neg h]
      exact ⟨[], rfl, fun p h1 h2 => by omega, fun i hi => (nomatch hi), List.Pairwise.nil,
        fun _ i hi => (nomatch hi)⟩
  | cons c cs ih =>
    intro cur hsep hv hge
    unfold Separated at hsep
    rw [List.pairwise_cons] at hsep
    have hc := hv c (by simp)
    have hcur := hge c (by simp)
    obtain ⟨r, hr, h1, h2, h3, h4⟩ := ih c.stop hsep.2 (fun i hi => hv i (by simp [hi]))
      (fun d hd => Int.le_of_lt (hsep.1 d hd))
    have hcov : ∀ p, Covered (c :: cs) p ↔ c.Has p ∨ Covered cs p := by
      intro p; unfold Covered; simp only [List.mem_cons, exists_eq_or_imp]
    have hlow : ∀ p, p < c.stop → ¬ Covered cs p := by
      rintro p hp ⟨d, hd, hd2⟩
      have := hsep.1 d hd
      unfold Interval.Has at hd2; omega
    have hrlow : ∀ p, Covered r p → c.stop ≤ p := by
      rintro p ⟨i, hi, hi2⟩
      have := h2 i hi
      unfold Interval.Has at hi2; omega
    unfold remainingLoop
    by_cases h : c.start > cur
    · rw [if_pos h, hr]
      unfold mkInterval
      rw [if_pos (by omega)]
      refine ⟨_, rfl, ?_, ?_, ?_, ?_⟩
      · intro p hp1 hp2
        rw [hcov p]
        have e : Covered (⟨cur, c.start⟩ :: r) p ↔ (cur ≤ p ∧ p < c.start) ∨ Covered r p := by
          unfold Covered Interval.Has; simp only [List.mem_cons, exists_eq_or_imp]
        rw [e]
        by_cases hp : p < c.stop
        · have a1 := hlow p hp
          have a2 : ¬ Covered r p := fun hh => by have := hrlow p hh; omega
          unfold Interval.Has
          constructor
          · rintro (h' | h')
            · rintro (h'' | h'')
              · omega
              · exact a1 h''
            · exact absurd h' a2
          · intro h'
            left
            refine ⟨hp1, ?_⟩
            by_contra hh
            exact h' (Or.inl ⟨by omega, hp⟩)
        · have a1 := h1 p (by omega) hp2
          unfold Interval.Has
          constructor
          · rintro (h' | h')
            · omega
            · rintro (h'' | h'')
              · omega
              · exact a1.1 h' h''
          · intro h'
            right
            exact a1.2 fun hh => h' (Or.inr hh)
      · intro i hi
        rcases List.mem_cons.1 hi with rfl | hi
        · refine ⟨Int.le_refl _, h, ?_⟩
          intro p hp
          unfold Interval.Has at hp
          simp only at hp
          rw [hcov p]
          rintro (h' | h')
          · unfold Interval.Has at h'; omega
          · exact hlow p (by omega) h'
        · obtain ⟨b1, b2, b3⟩ := h2 i hi
          refine ⟨by omega, b2, ?_⟩
          intro p hp
          rw [hcov p]
          rintro (h' | h')
          · unfold Interval.Has at h' hp; omega
          · exact b3 p hp h'
      · rw [List.pairwise_cons]
        refine ⟨?_, h3⟩
        intro i hi
        have := (h2 i hi).1
        show c.start ≤ i.start
        omega
      · intro hle i hi
        rcases List.mem_cons.1 hi with rfl | hi
        · have := hle c (by simp)
          show c.start ≤ size
          omega
        · exact h4 (fun d hd => hle d (by simp [hd])) i hi
    · rw [if_neg h]
      refine ⟨r, hr, ?_, ?_, h3, fun hle => h4 (fun d hd => hle d (by simp [hd]))⟩
      · intro p hp1 hp2
        rw [hcov p]
        by_cases hp : p < c.stop
        · have a2 : ¬ Covered r p := fun hh => by have := hrlow p hh; omega
          constructor
          · intro h'; exact absurd h' a2
          · intro h'
            exact absurd (Or.inl ⟨by omega, hp⟩) h'
        · have a1 := h1 p (by omega) hp2
          rw [a1]
          constructor
          · rintro h' (h'' | h'')
            · unfold Interval.Has at h''; omega
            · exact h' h''
          · intro h' hh; exact h' (Or.inr hh)
      · intro i hi
        obtain ⟨b1, b2, b3⟩ := h2 i hi
        refine ⟨by omega, b2, ?_⟩
        intro p hp
        rw [hcov p]
        rintro (h' | h')
        · unfold Interval.Has at h' hp; omega
        · exact b3 p hp h'

/-- Received ranges in any order, merged and then complemented: the remaining
ranges are exactly the positions of the file that are not received; they are
non-empty, in order and disjoint. -/
theorem C14_remaining_exact (l sorted : List Interval) (hv : Valid l) (h0 : ∀ i ∈ l, 0 ≤ i.start)
    (hs : IsSortOf sorted l) (size : Int) (hend : ∀ i ∈ l, i.stop ≤ size) :
    ∃ r, getRemainingChunks (mergeSorted sorted) size = .ok r ∧
      (∀ p, Covered r p ↔ (0 ≤ p ∧ p < size ∧ ¬ Covered l p)) ∧
      (∀ i ∈ r, i.start < i.stop) ∧ r.Pairwise (fun a b => a.stop ≤ b.start) := by
  obtain ⟨hsep, hval⟩ := C13_merge_separated l sorted hv hs
  -- bounds survive merging
  have hb : ∀ i ∈ mergeSorted sorted, 0 ≤ i.start ∧ i.stop ≤ size := by
    have key : ∀ (cs : List Interval) (cur : Interval), (0 ≤ cur.start ∧ cur.stop ≤ size) →
        (∀ c ∈ cs, 0 ≤ c.start ∧ c.stop ≤ size) → ∀ i ∈ mergeLoop cur cs, 0 ≤ i.start ∧ i.stop ≤ size := by
      intro cs
      induction cs with
      | nil => intro cur hc _ i hi; unfold mergeLoop at hi; rw [List.mem_singleton] at hi; rw [hi]; exact hc
      | cons c cs ih =>
        intro cur hc hall i hi
        have hcc := hall c (by simp)
        unfold mergeLoop at hi
        split at hi
        · rcases List.mem_cons.1 hi with rfl | hi
          · exact hc
          · exact ih c hcc (fun d hd => hall d (by simp [hd])) i hi
        · exact ih { cur with stop := max cur.stop c.stop } ⟨hc.1, by simp only; omega⟩ (fun d hd => hall d (by simp [hd])) i hi
    cases sorted with
    | nil => intro i hi; cases hi
    | cons c cs =>
      have : ∀ i ∈ c :: cs, 0 ≤ i.start ∧ i.stop ≤ size := fun i hi =>
        ⟨h0 i (hs.1.mem_iff.1 hi), hend i (hs.1.mem_iff.1 hi)⟩
      exact key cs c (this c (by simp)) (fun d hd => this d (by simp [hd]))
  obtain ⟨r, hr, h1, h2, h3, h4⟩ := remainingLoop_spec size (mergeSorted sorted) 0 hsep hval
    (fun c hc => (hb c hc).1)
  refine ⟨r, hr, ?_, fun i hi => (h2 i hi).2.1, h3⟩
  intro p
  constructor
  · intro hc
    obtain ⟨i, hi, hi2⟩ := hc
    have a := h2 i hi
    have b := h4 (fun c hc => (hb c hc).2) i hi
    have hp0 : 0 ≤ p := by unfold Interval.Has at hi2; omega
    have hps : p < size := by unfold Interval.Has at hi2; omega
    refine ⟨hp0, hps, ?_⟩
    rw [← C13_merge_covers l sorted hv hs p]
    exact (h1 p hp0 hps).1 ⟨i, hi, hi2⟩
  · rintro ⟨hp0, hps, hn⟩
    rw [← C13_merge_covers l sorted hv hs p] at hn
    exact (h1 p hp0 hps).2 hn

/-- Nothing remains exactly when every position of the file was received. -/
theorem C14_nothing_remaining_iff (l sorted : List Interval) (hv : Valid l) (h0 : ∀ i ∈ l, 0 ≤ i.start)
    (hs : IsSortOf sorted l) (size : Int) (hend : ∀ i ∈ l, i.stop ≤ size) :
    getRemainingChunks (mergeSorted sorted) size = .ok [] ↔ ∀ p, 0 ≤ p → p < size → Covered l p := by
  obtain ⟨r, hr, h1, h2, _⟩ := C14_remaining_exact l sorted hv h0 hs size hend
  rw [hr]
  constructor
  · intro h p hp0 hps
    simp only [Except.ok.injEq] at h
    subst h
    by_contra hn
    obtain ⟨i, hi, _⟩ := (h1 p).2 ⟨hp0, hps, hn⟩
    cases hi
  · intro h
    cases r with
    | nil => rfl
    | cons i r =>
      exfalso
      have hi := h2 i (by simp)
      have := (h1 i.start).1 ⟨i, by simp, by unfold Interval.Has; omega⟩
      exact this.2.2 (h _ this.1 this.2.1)

example : IsSortOf [⟨0, 5⟩, ⟨5, 9⟩, ⟨20, 30⟩] [⟨5, 9⟩, ⟨0, 5⟩, ⟨20, 30⟩] ∧
    getRemainingChunks (mergeSorted [⟨0, 5⟩, ⟨5, 9⟩, ⟨20, 30⟩]) 40 = .ok [⟨9, 20⟩, ⟨30, 40⟩] := by
  refine ⟨⟨List.Perm.swap _ _ _, by decide⟩, by decide +kernel⟩

/-! ## C15 -/

/-- Consecutive blocks that start at `start` and end at `stop`. -/
inductive Tiles : List Block → Int → Int → Prop
  | nil (a : Int) : Tiles [] a a
  | cons (b : Block) (bs : List Block) (stop : Int) : Tiles bs (b.offset + b.size) stop →
      Tiles (b :: bs) b.offset stop

theorem tileLoop_spec (bs : Int) (hbs : 0 < bs) (fuel : Nat) : ∀ (off rem : Int), 0 ≤ rem → rem < fuel →
    ∃ l, tileLoop bs fuel off rem = some l ∧ Tiles l off (off + rem) ∧ l ≠ [] ∧
      (∀ b ∈ l, b.size ≤ bs ∧ 0 ≤ b.size ∧ (0 < rem → 0 < b.size)) ∧ (rem = 0 → l = [⟨off, 0⟩]) := by
  induction fuel with
  | zero => intro off rem h0 h; omega
  | succ fuel ih =>
    intro off rem h0 hf
    unfold tileLoop
    simp only
    by_cases h : rem - min rem bs > 0
    · rw [if_pos h]
      obtain ⟨l, hl, ht, hne, hb, _⟩ := ih (off + min rem bs) (rem - min rem bs) (by omega) (by omega)
      rw [hl]
      refine ⟨_, rfl, ?_, by simp, ?_, by omega⟩
      · have e : off + rem = off + min rem bs + (rem - min rem bs) := by omega
        rw [e]
        exact Tiles.cons ⟨off, min rem bs⟩ l _ ht
      · intro b hbm
        rcases List.mem_cons.1 hbm with rfl | hbm
        · simp only; omega
        · have := hb b hbm
          omega
    · rw [if_neg h]
      have hm : min rem bs = rem := by omega
      rw [hm]
      refine ⟨_, rfl, Tiles.cons ⟨off, rem⟩ [] _ (Tiles.nil _), by simp, ?_, ?_⟩
      · intro b hbm
        rw [List.mem_singleton] at hbm
        subst hbm
        simp only; omega
      · intro h0; rw [h0]

/-- Blocks of one range: they start at its start, follow each other without gap
or overlap and end at its end; none is larger than the block size; none is empty
unless the range is empty, in which case there is exactly one empty block. -/
theorem C15_tile_range (blockSize : Int) (hbs : 0 < blockSize) (i : Interval) (hi : i.start ≤ i.stop) :
    ∃ fuel l, tileLoop blockSize fuel i.start i.size = some l ∧ Tiles l i.start i.stop ∧
      (∀ b ∈ l, b.size ≤ blockSize ∧ (i.start < i.stop → 0 < b.size)) ∧
      (i.start = i.stop → l = [⟨i.start, 0⟩]) := by
  obtain ⟨l, h1, h2, _, h4, h5⟩ := tileLoop_spec blockSize hbs ((i.stop - i.start).toNat + 1) i.start
    (i.stop - i.start) (by omega) (by omega)
  refine ⟨_, l, h1, ?_, ?_, ?_⟩
  · have e : i.start + (i.stop - i.start) = i.stop := by omega
    rw [e] at h2; exact h2
  · intro b hb
    have := h4 b hb
    exact ⟨this.1, fun h => this.2.2 (by omega)⟩
  · intro h; exact h5 (by omega)

/-- More fuel does not change the outcome (the loop is deterministic). -/
theorem tileLoop_mono (bs : Int) (fuel : Nat) : ∀ (off rem : Int) (l : List Block),
    tileLoop bs fuel off rem = some l → ∀ fuel', fuel ≤ fuel' → tileLoop bs fuel' off rem = some l := by
  induction fuel with
  | zero => intro off rem l h; simp [tileLoop] at h
  | succ fuel ih =>
    intro off rem l h fuel' hf
    obtain ⟨f', rfl⟩ : ∃ f', fuel' = f' + 1 := ⟨fuel' - 1, by omega⟩
    unfold tileLoop at h ⊢
    simp only at h ⊢
    split
    · rename_i hpos
      rw [if_pos hpos] at h
      rw [Option.map_eq_some_iff] at h
      obtain ⟨a, ha, hal⟩ := h
      rw [ih _ _ _ ha f' (by omega)]
      rw [Option.map_some, hal]
    · rename_i hpos
      rw [if_neg hpos] at h
      exact h

/-- Blocks of a whole file: byte position `p` belongs to some block exactly when
it belongs to a remaining range, and no two blocks share a position. -/
theorem tileAll_spec (blockSize : Int) (hbs : 0 < blockSize) (rs : List Interval) (fuel : Nat)
    (hv : ∀ i ∈ rs, i.start ≤ i.stop ∧ i.size < fuel) (hp : rs.Pairwise (fun a b => a.stop ≤ b.start)) :
    ∃ l, tileAll blockSize fuel rs = some l ∧
      (∀ p, (∃ b ∈ l, b.offset ≤ p ∧ p < b.offset + b.size) ↔ Covered rs p) ∧
      l.Pairwise (fun a b => a.offset + a.size ≤ b.offset) ∧
      (∀ b ∈ l, 0 ≤ b.size ∧ b.size ≤ blockSize) ∧
      (∀ b ∈ l, ∃ i ∈ rs, i.start ≤ b.offset ∧ b.offset + b.size ≤ i.stop) := by
  have tilesCover : ∀ (l : List Block) (a z : Int), Tiles l a z → (∀ b ∈ l, 0 ≤ b.size) →
      a ≤ z ∧ (∀ p, (∃ b ∈ l, b.offset ≤ p ∧ p < b.offset + b.size) ↔ (a ≤ p ∧ p < z)) ∧
      l.Pairwise (fun a b => a.offset + a.size ≤ b.offset) ∧
      (∀ b ∈ l, a ≤ b.offset ∧ b.offset + b.size ≤ z) := by
    intro l a z ht
    induction ht with
    | nil a =>
      intro _
      refine ⟨Int.le_refl _, ?_, List.Pairwise.nil, by intro b hb; cases hb⟩
      intro p
      constructor
      · rintro ⟨b, hb, _⟩; cases hb
      · intro h; omega
    | cons b bs stop _ ih =>
      intro hnn
      obtain ⟨h1, h2, h3, h4⟩ := ih (fun c hc => hnn c (by simp [hc]))
      have hb0 := hnn b (by simp)
      refine ⟨by omega, ?_, ?_, ?_⟩
      · intro p
        have hp := h2 p
        simp only [List.mem_cons, exists_eq_or_imp]
        rw [hp]; omega
      · rw [List.pairwise_cons]
        exact ⟨fun c hc => (h4 c hc).1, h3⟩
      · intro c hc
        rcases List.mem_cons.1 hc with rfl | hc
        · omega
        · have := h4 c hc; omega
  induction rs with
  | nil =>
    refine ⟨[], rfl, ?_, List.Pairwise.nil, fun b hb => (nomatch hb), fun b hb => (nomatch hb)⟩
    intro p; unfold Covered; simp
  | cons i rs ih =>
    rw [List.pairwise_cons] at hp
    obtain ⟨l2, e2, c2, p2, s2, w2⟩ := ih (fun j hj => hv j (by simp [hj])) hp.2
    obtain ⟨hi, hif⟩ := hv i (by simp)
    obtain ⟨l1, e1, t1, _, s1, _⟩ := tileLoop_spec blockSize hbs fuel i.start i.size
      (by unfold Interval.size; omega) (by omega)
    have estop : i.start + i.size = i.stop := by unfold Interval.size; omega
    rw [estop] at t1
    obtain ⟨_, c1, p1, w1⟩ := tilesCover l1 _ _ t1 (fun b hb => (s1 b hb).2.1)
    refine ⟨l1 ++ l2, ?_, ?_, ?_, ?_, ?_⟩
    · unfold tileAll; rw [e1, e2]
    · intro p
      have hc1 := c1 p
      have hc2 := c2 p
      have e : Covered (i :: rs) p ↔ (i.start ≤ p ∧ p < i.stop) ∨ Covered rs p := by
        unfold Covered Interval.Has; simp only [List.mem_cons, exists_eq_or_imp]
      rw [e, ← hc1, ← hc2]
      constructor
      · rintro ⟨b, hb, hb2⟩
        rcases List.mem_append.1 hb with hb | hb
        · exact Or.inl ⟨b, hb, hb2⟩
        · exact Or.inr ⟨b, hb, hb2⟩
      · rintro (⟨b, hb, hb2⟩ | ⟨b, hb, hb2⟩)
        · exact ⟨b, List.mem_append.2 (Or.inl hb), hb2⟩
        · exact ⟨b, List.mem_append.2 (Or.inr hb), hb2⟩
    · rw [List.pairwise_append]
      refine ⟨p1, p2, ?_⟩
      intro a ha b hb
      obtain ⟨j, hj, hj1, _⟩ := w2 b hb
      have := hp.1 j hj
      have := w1 a ha
      omega
    · intro b hb
      rcases List.mem_append.1 hb with hb | hb
      · have := s1 b hb; omega
      · exact s2 b hb
    · intro b hb
      rcases List.mem_append.1 hb with hb | hb
      · exact ⟨i, by simp, (w1 b hb).1, (w1 b hb).2⟩
      · obtain ⟨j, hj, hj2⟩ := w2 b hb
        exact ⟨j, by simp [hj], hj2⟩

theorem blockSize_mb (mb size : Int) : effectiveBlockSize mb size = if 0 < mb then mb * 1048576 else size := by
  unfold effectiveBlockSize
  split <;> split <;> omega

/-- A file the receiver knows nothing of, or has in a larger size: the blocks
tile the whole file.  With block mode off there is a single block. -/
theorem C15_fresh_file (mb : Int) (prev : Option FileChunksInfo) (size next : Int) (hsize : 0 < size)
    (hprev : ∀ i, prev = some i → i.fileSize > size) :
    ∃ fuel l, fileBlocks mb prev size next fuel = .ok (some l) ∧
      (∀ p, (∃ b ∈ l, b.offset ≤ p ∧ p < b.offset + b.size) ↔ (0 ≤ p ∧ p < size)) ∧
      l.Pairwise (fun a b => a.offset + a.size ≤ b.offset) ∧
      (∀ b ∈ l, b.size ≤ if 0 < mb then mb * 1048576 else size) ∧
      (mb ≤ 0 → l = [⟨0, size⟩]) := by
  have hbs : 0 < effectiveBlockSize mb size := by unfold effectiveBlockSize; split <;> omega
  obtain ⟨l, h1, h2, h3, h4, h5⟩ := tileAll_spec (effectiveBlockSize mb size) hbs [⟨0, size⟩]
    (size.toNat + 1) (by
      intro i hi; rw [List.mem_singleton] at hi; subst hi
      unfold Interval.size; simp only; omega) (List.pairwise_singleton _ _)
  have hplan : fileBlocks mb prev size next (size.toNat + 1) =
      .ok (tileAll (effectiveBlockSize mb size) (size.toNat + 1) [⟨0, size⟩]) := by
    unfold fileBlocks planFile mkInterval
    cases prev with
    | none => simp only; rw [if_pos (by omega)]
    | some info =>
      have := hprev info rfl
      simp only
      rw [if_pos this, if_pos (by omega)]
  refine ⟨size.toNat + 1, l, by rw [hplan, h1], ?_, h3, fun b hb => blockSize_mb mb size ▸ (h4 b hb).2, ?_⟩
  · intro p
    rw [h2 p]
    unfold Covered Interval.Has
    simp
  · intro hmb
    have e : effectiveBlockSize mb size = size := by unfold effectiveBlockSize; rw [if_neg (by omega)]
    rw [e] at h1
    obtain ⟨s, hs⟩ : ∃ s, size.toNat + 1 = s + 1 := ⟨_, rfl⟩
    unfold tileAll tileAll tileLoop at h1
    simp only [Interval.size, Int.sub_zero] at h1
    have hm : min size size = size := by omega
    rw [hm, if_neg (by omega)] at h1
    simp only [Option.some.injEq, List.append_nil] at h1
    exact h1.symm

/-- An empty file yields exactly one empty block. -/
theorem C15_empty_file (mb next : Int) :
    fileBlocks mb none 0 next 1 = .ok (some [⟨0, 0⟩]) := by
  unfold fileBlocks planFile mkInterval
  simp only [ge_iff_le, Int.le_refl, if_true]
  have hbs : 0 ≤ effectiveBlockSize mb 0 := by unfold effectiveBlockSize; split <;> omega
  generalize effectiveBlockSize mb 0 = bs at hbs
  have hz : (⟨0, 0⟩ : Interval).size = 0 := rfl
  unfold tileAll tileAll tileLoop
  rw [hz]
  have hm : min (0 : Int) bs = 0 := by omega
  simp only [hm]
  simp

/-- A resumed file (receiver has it in the same or a smaller size, with ranges
inside that size): the blocks tile exactly the bytes not yet received. -/
theorem C15_resumed_file (mb : Int) (info : FileChunksInfo) (l sorted : List Interval) (hv : Valid l)
    (h0 : ∀ i ∈ l, 0 ≤ i.start) (hs : IsSortOf sorted l) (hmerged : info.chunks = mergeSorted sorted)
    (hin : ∀ i ∈ l, i.stop ≤ info.fileSize) (size next : Int) (hsz : info.fileSize ≤ size)
    (hpos : 0 < size) :
    ∃ fuel bl, fileBlocks mb (some info) size next fuel = .ok (some bl) ∧
      (∀ p, (∃ b ∈ bl, b.offset ≤ p ∧ p < b.offset + b.size) ↔ (0 ≤ p ∧ p < size ∧ ¬ Covered l p)) ∧
      bl.Pairwise (fun a b => a.offset + a.size ≤ b.offset) ∧
      (∀ b ∈ bl, b.size ≤ if 0 < mb then mb * 1048576 else size) := by
  obtain ⟨r, hr, h1, h2, h3⟩ := C14_remaining_exact l sorted hv h0 hs size
    (fun i hi => by have := hin i hi; omega)
  have hbs : 0 < effectiveBlockSize mb size := by unfold effectiveBlockSize; split <;> omega
  -- enough fuel: no remaining range is longer than the file
  have hsizes : ∀ i ∈ r, i.start ≤ i.stop ∧ i.size < ((size.toNat + 1 : Nat) : Int) := by
    intro i hi
    have a := h2 i hi
    have b := (h1 i.start).1 ⟨i, hi, by unfold Interval.Has; omega⟩
    have c := (h1 (i.stop - 1)).1 ⟨i, hi, by unfold Interval.Has; omega⟩
    unfold Interval.size
    omega
  obtain ⟨bl, e1, e2, e3, e4, _⟩ := tileAll_spec (effectiveBlockSize mb size) hbs r (size.toNat + 1)
    hsizes h3
  refine ⟨size.toNat + 1, bl, ?_, ?_, e3, fun b hb => blockSize_mb mb size ▸ (e4 b hb).2⟩
  · unfold fileBlocks planFile
    simp only
    rw [if_neg (by omega), hmerged, hr]
    cases r with
    | nil =>
      simp only
      unfold tileAll at e1
      rw [← e1]
    | cons c cs => simp only; rw [e1]
  · intro p; rw [e2 p, h1 p]

example : fileBlocks 1 (some ⟨4, [97], 2500000, [⟨0, 1000000⟩]⟩) 2500000 9 10 =
    .ok (some [⟨1000000, 1048576⟩, ⟨2048576, 451424⟩]) := by decide +kernel

/-- The status sent with the blocks tells the receiver whether its copy has the
right size: nothing known / too large / too small / right. -/
theorem C15_status (prev : Option FileChunksInfo) (size next : Int) (p : FilePlan)
    (h : planFile prev size next = .ok (some p)) :
    (p.status = 0 ↔ prev = none) ∧
    (p.status = 2 ↔ ∃ i, prev = some i ∧ i.fileSize > size) ∧
    (p.status = 3 ↔ ∃ i, prev = some i ∧ i.fileSize < size) ∧
    (p.status = 1 ↔ ∃ i, prev = some i ∧ i.fileSize = size) := by
  unfold planFile mkInterval at h
  cases prev with
  | none =>
    simp only at h
    split at h
    · simp at h
    · simp only [Except.ok.injEq, Option.some.injEq] at h
      subst h
      simp [NOT_EXISTS]
  | some info =>
    simp only at h
    split at h
    · split at h
      · simp at h
      · simp only [Except.ok.injEq, Option.some.injEq] at h
        subst h
        simp [EXISTS_TOO_LARGE]
        omega
    · split at h
      · simp at h
      · simp at h
      · simp only [Except.ok.injEq, Option.some.injEq] at h
        subst h
        simp only [EXISTS_TOO_SMALL, EXISTS_CORRECT_SIZE]
        simp
        split <;> simp <;> omega

/-- Disagreement with the code: with block mode off and an (invalid) chunk list
claiming ranges beyond an empty file, the block loop never ends. -/
theorem C15_hostile_list_endless (fuel : Nat) :
    fileBlocks 0 (some ⟨1, [97], 0, [⟨5, 6⟩]⟩) 0 1 fuel = .ok none := by
  have h : ∀ (fuel : Nat) (off : Int), tileLoop 0 fuel off 5 = none := by
    intro fuel
    induction fuel with
    | zero => intro off; rfl
    | succ fuel ih =>
      intro off
      unfold tileLoop
      have hm : min (5 : Int) 0 = 0 := by decide
      simp only [hm]
      rw [if_pos (by decide)]
      have := ih (off + 0)
      simp only [Int.sub_zero]
      rw [this]; rfl
  have e : planFile (some ⟨1, [97], 0, [⟨5, 6⟩]⟩) 0 1 =
      .ok (some ⟨[⟨0, 5⟩], 1, 0, EXISTS_CORRECT_SIZE, 1, 1⟩) := by decide +kernel
  unfold fileBlocks
  rw [e]
  simp only
  unfold tileAll
  have e2 : effectiveBlockSize 0 0 = 0 := by decide
  have e3 : (⟨0, 5⟩ : Interval).size = 5 := by decide
  rw [e2, e3, h]

end Wdt
