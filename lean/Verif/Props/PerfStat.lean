import Verif.Model.PerfStat
import Mathlib.Tactic.Linarith
import Mathlib.Tactic.ByContra
/-
C93: the statistics of calls that are printed are those of the calls.
-/
namespace Wdt

/-- The durations, in microseconds, of the calls of a type in all threads. -/
def callsOf (type : Nat) (threads : List (List (Nat × Int))) : List Int :=
  (threads.flatten.filter fun c => decide (c.1 = type)).map (·.2)

/-- Number of the calls of which the whole milliseconds fulfil `P`. -/
def numCalls (P : Int → Prop) [DecidablePred P] (l : List Int) : Int := ((l.countP fun c => decide (P (c / 1000)) : Nat) : Int)

/-- Sum of the values whose keys fulfil `P`. -/
def TimeHist.total (P : Int → Prop) [DecidablePred P] : TimeHist → Int
  | [] => 0
  | (k, v) :: h => (if P k then v else 0) + TimeHist.total P h

theorem hist_total_add (P : Int → Prop) [DecidablePred P] (k v : Int) (h : TimeHist) :
    (h.add k v).total P = h.total P + if P k then v else 0 := by
  induction h with
  | nil => simp [TimeHist.add, TimeHist.total]
  | cons p h ih =>
    obtain ⟨k', v'⟩ := p
    unfold TimeHist.add
    split
    · rename_i hk
      subst hk
      simp only [TimeHist.total]
      split <;> omega
    · simp only [TimeHist.total, ih]
      omega

theorem hist_total_foldl (P : Int → Prop) [DecidablePred P] (b : TimeHist) : ∀ a : TimeHist,
    TimeHist.total P (b.foldl (fun h p => h.add p.1 p.2) a) = a.total P + b.total P := by
  induction b with
  | nil => intro a; simp [TimeHist.total]
  | cons p b ih =>
    intro a
    rw [List.foldl_cons, ih, hist_total_add]
    simp only [TimeHist.total]
    omega

/-- Keys of a map are different. -/
def TimeHist.Keys (h : TimeHist) : Prop := (h.map (·.1)).Nodup ∧ ∀ p ∈ h, 0 < p.2

theorem hist_add_mem {k v : Int} {h : TimeHist} {q : Int × Int} (hq : q ∈ h.add k v) :
    q ∈ h ∨ q = (k, v) ∨ ∃ v', (k, v') ∈ h ∧ q = (k, v' + v) := by
  induction h with
  | nil => simp [TimeHist.add] at hq; exact .inr (.inl hq)
  | cons p h ih =>
    obtain ⟨k', v'⟩ := p
    unfold TimeHist.add at hq
    split at hq
    · rename_i hk
      subst hk
      rcases List.mem_cons.1 hq with rfl | hq
      · exact .inr (.inr ⟨v', by simp, rfl⟩)
      · exact .inl (by simp [hq])
    · rcases List.mem_cons.1 hq with rfl | hq
      · exact .inl (by simp)
      · rcases ih hq with h1 | h1 | ⟨v1, h1, h2⟩
        · exact .inl (by simp [h1])
        · exact .inr (.inl h1)
        · exact .inr (.inr ⟨v1, by simp [h1], h2⟩)

theorem hist_add_keys {k v : Int} (hv : 0 < v) {h : TimeHist} (hk : h.Keys) : (h.add k v).Keys := by
  refine ⟨?_, ?_⟩
  · have h1 := hk.1
    clear hk
    induction h with
    | nil => simp [TimeHist.add]
    | cons p h ih =>
      obtain ⟨k', v'⟩ := p
      rw [List.map_cons, List.nodup_cons] at h1
      unfold TimeHist.add
      split
      · rename_i he
        subst he
        rw [List.map_cons, List.nodup_cons]
        exact h1
      · rename_i he
        rw [List.map_cons, List.nodup_cons]
        refine ⟨?_, ih h1.2⟩
        intro hm
        obtain ⟨q, hq, hq2⟩ := List.mem_map.1 hm
        rcases hist_add_mem hq with h2 | h2 | ⟨v1, h2, h3⟩
        · exact h1.1 (List.mem_map.2 ⟨q, h2, hq2⟩)
        · subst h2; exact he hq2.symm
        · subst h3; exact he hq2.symm
  · intro q hq
    rcases hist_add_mem hq with h2 | h2 | ⟨v1, h2, h3⟩
    · exact hk.2 q h2
    · subst h2; exact hv
    · subst h3
      have := hk.2 _ h2
      dsimp at this ⊢
      omega

theorem hist_foldl_keys {b : TimeHist} (hb : ∀ p ∈ b, 0 < p.2) : ∀ {a : TimeHist}, a.Keys → TimeHist.Keys (b.foldl (fun h p => h.add p.1 p.2) a) := by
  induction b with
  | nil => intro a ha; exact ha
  | cons p b ih =>
    intro a ha
    exact ih (fun q hq => hb q (by simp [hq])) (hist_add_keys (hb p (by simp)) ha)

/-- What the members of a report for one type say about calls `l`. -/
structure RepStat (m : Int) (s : PerfStat) (l : List Int) : Prop where
  keys : s.hist.Keys
  total : ∀ (P : Int → Prop) [DecidablePred P], s.hist.total P = numCalls P l
  count : s.count = l.length
  sum : s.sum = l.sum
  max : s.max = l.foldl Max.max 0
  min : s.min = l.foldl Min.min m

theorem numCalls_append (P : Int → Prop) [DecidablePred P] (a b : List Int) : numCalls P (a ++ b) = numCalls P a + numCalls P b := by
  simp [numCalls, List.countP_append]

theorem numCalls_single (P : Int → Prop) [DecidablePred P] (c : Int) : numCalls P [c] = if P (c / 1000) then 1 else 0 := by
  unfold numCalls
  by_cases h : P (c / 1000) <;> simp [h]

theorem RepStat.add {m : Int} {s : PerfStat} {l : List Int} (h : RepStat m s l) {c : Int} (hc : 0 ≤ c) : RepStat m (s.add c) (l ++ [c]) where
  keys := hist_add_keys (by decide) h.keys
  total := by
    intro P _
    rw [numCalls_append, numCalls_single, ← h.total P]
    show (s.hist.add (c.tdiv 1000) 1).total P = _
    rw [hist_total_add, Int.tdiv_eq_ediv_of_nonneg hc]
  count := by simp [PerfStat.add, h.count]
  sum := by simp [PerfStat.add, h.sum]
  max := by simp [PerfStat.add, h.max]
  min := by simp [PerfStat.add, h.min]

theorem foldl_max_zero (b : List Int) : ∀ a : Int, 0 ≤ a → Max.max a (b.foldl Max.max 0) = b.foldl Max.max a := by
  induction b with
  | nil => intro a ha; simp; omega
  | cons c b ih =>
    intro a ha
    have h1 := ih (Max.max a c) (by omega)
    have h2 := ih (Max.max 0 c) (by omega)
    rw [List.foldl_cons, List.foldl_cons, ← h1, ← h2]
    omega

theorem foldl_max_nonneg (b : List Int) : ∀ a : Int, 0 ≤ a → 0 ≤ b.foldl Max.max a := by
  induction b with
  | nil => intro a ha; exact ha
  | cons c b ih => intro a ha; exact ih _ (by omega)

theorem foldl_min_same (m : Int) (b : List Int) : ∀ a : Int, a ≤ m → Min.min a (b.foldl Min.min m) = b.foldl Min.min a := by
  induction b with
  | nil => intro a ha; simp; omega
  | cons c b ih =>
    intro a ha
    have h1 := ih (Min.min a c) (by omega)
    have h2 : ∀ x y : Int, x ≤ y → ∀ l : List Int, l.foldl Min.min x ≤ l.foldl Min.min y := by
      intro x y hxy l
      induction l generalizing x y with
      | nil => exact hxy
      | cons d l ih2 => exact ih2 _ _ (by omega)
    have h3 : ∀ (l : List Int) (x y : Int), l.foldl Min.min (Min.min x y) = Min.min x (l.foldl Min.min y) := by
      intro l
      induction l with
      | nil => intro x y; rfl
      | cons d l ih3 =>
        intro x y
        rw [List.foldl_cons, List.foldl_cons, ← ih3]
        congr 1
        omega
    rw [List.foldl_cons, List.foldl_cons, ← h3]
    congr 1
    omega

theorem foldl_min_le (m : Int) (b : List Int) : b.foldl Min.min m ≤ m := by
  induction b generalizing m with
  | nil => exact Int.le_refl m
  | cons c b ih => exact Int.le_trans (ih _) (by omega)

theorem RepStat.merge {m : Int} {s t : PerfStat} {a b : List Int} (h : RepStat m s a) (g : RepStat m t b) :
    RepStat m (s.merge t) (a ++ b) where
  keys := hist_foldl_keys g.keys.2 h.keys
  total := by
    intro P _
    rw [numCalls_append, ← h.total P, ← g.total P]
    exact hist_total_foldl P _ _
  count := by simp [PerfStat.merge, h.count, g.count]
  sum := by simp [PerfStat.merge, h.sum, g.sum]
  max := by
    rw [List.foldl_append, ← foldl_max_zero b _ (foldl_max_nonneg a 0 (Int.le_refl 0)), ← h.max, ← g.max]
    rfl
  min := by
    rw [List.foldl_append, ← foldl_min_same m b _ (foldl_min_le m a), ← h.min, ← g.min]
    rfl

/-- The minimum that a new report starts from. -/
def startMin (i : Nat) : Int := if i = 0 then maxInt64 else 0

theorem RepStat.new (i : Nat) : RepStat (startMin i) (PerfReport.new i) [] where
  keys := ⟨.nil, by simp [PerfReport.new]⟩
  total := by intro P _; simp [PerfReport.new, TimeHist.total, numCalls]
  count := rfl
  sum := rfl
  max := rfl
  min := rfl

theorem rep_collect (i : Nat) (l : List (Nat × Int)) : ∀ (r : PerfReport) (a : List Int), (∀ c ∈ l, 0 ≤ c.2) → RepStat (startMin i) (r i) a →
    RepStat (startMin i) ((l.foldl (fun r c => r.add c.1 c.2) r) i) (a ++ (l.filter fun c => decide (c.1 = i)).map (·.2)) := by
  induction l with
  | nil => intro r a _ h; simpa using h
  | cons c l ih =>
    intro r a hc h
    rw [List.foldl_cons]
    by_cases hi : c.1 = i
    · have h1 := ih (r.add c.1 c.2) (a ++ [c.2]) (fun x hx => hc x (by simp [hx])) (by
        unfold PerfReport.add
        rw [if_pos hi.symm]
        exact h.add (hc c (by simp)))
      simpa [hi] using h1
    · have h1 := ih (r.add c.1 c.2) a (fun x hx => hc x (by simp [hx])) (by
        unfold PerfReport.add
        rw [if_neg (fun h => hi h.symm)]
        exact h)
      simpa [hi] using h1

theorem rep_merge (i : Nat) (threads : List (List (Nat × Int))) : ∀ (r : PerfReport) (a : List Int), (∀ l ∈ threads, ∀ c ∈ l, 0 ≤ c.2) →
    RepStat (startMin i) (r i) a →
    RepStat (startMin i) ((threads.foldl (fun r l => r.merge (collectCalls l)) r) i) (a ++ callsOf i threads) := by
  induction threads with
  | nil => intro r a _ h; simpa [callsOf] using h
  | cons l threads ih =>
    intro r a hc h
    have h1 := rep_collect i l .new [] (hc l (by simp)) (RepStat.new i)
    have h2 := ih (r.merge (collectCalls l)) (a ++ (l.filter fun c => decide (c.1 = i)).map (·.2))
      (fun x hx => hc x (by simp [hx])) (h.merge (by rw [List.nil_append] at h1; exact h1))
    simpa [callsOf, List.filter_append] using h2

theorem rep_reports (i : Nat) (threads : List (List (Nat × Int))) (hc : ∀ l ∈ threads, ∀ c ∈ l, 0 ≤ c.2) :
    RepStat (startMin i) (mergeReports threads i) (callsOf i threads) := by
  have h := rep_merge i threads .new [] hc (RepStat.new i)
  rw [List.nil_append] at h
  exact h

/-! ### Printing -/

theorem insertKey_total (P : Int → Prop) [DecidablePred P] (p : Int × Int) (h : TimeHist) :
    (insertKey p h).total P = (if P p.1 then p.2 else 0) + h.total P := by
  induction h with
  | nil => rfl
  | cons q h ih =>
    unfold insertKey
    split
    · rfl
    · simp only [TimeHist.total, ih]
      omega

theorem sortKeys_total (P : Int → Prop) [DecidablePred P] (h : TimeHist) : (sortKeys h).total P = h.total P := by
  induction h with
  | nil => rfl
  | cons p h ih => rw [sortKeys, insertKey_total, ih]; rfl

theorem insertKey_perm (p : Int × Int) (h : TimeHist) : (insertKey p h).Perm (p :: h) := by
  induction h with
  | nil => exact .refl _
  | cons q h ih =>
    unfold insertKey
    split
    · exact .refl _
    · exact (List.Perm.cons q ih).trans (List.Perm.swap p q h)

theorem sortKeys_perm (h : TimeHist) : (sortKeys h).Perm h := by
  induction h with
  | nil => exact .refl _
  | cons p h ih => exact (insertKey_perm p _).trans (.cons p ih)

/-- Ascending keys. -/
def TimeHist.Sorted (h : TimeHist) : Prop := h.Pairwise fun a b => a.1 < b.1

theorem insertKey_sorted {p : Int × Int} {h : TimeHist} (hs : h.Sorted) (hp : ∀ q ∈ h, q.1 ≠ p.1) : (insertKey p h).Sorted := by
  induction h with
  | nil => simp [insertKey, TimeHist.Sorted]
  | cons q h ih =>
    unfold TimeHist.Sorted at hs ih ⊢
    unfold insertKey
    rw [List.pairwise_cons] at hs
    have hq := hp q (by simp)
    split
    · rename_i hle
      rw [List.pairwise_cons]
      refine ⟨?_, List.pairwise_cons.2 hs⟩
      intro x hx
      rcases List.mem_cons.1 hx with rfl | hx
      · omega
      · have := hs.1 x hx; omega
    · rw [List.pairwise_cons]
      refine ⟨?_, ih hs.2 fun x hx => hp x (by simp [hx])⟩
      intro x hx
      rcases List.mem_cons.1 ((insertKey_perm p h).mem_iff.1 hx) with rfl | hx
      · omega
      · exact hs.1 x hx

theorem sortKeys_sorted {h : TimeHist} (hk : (h.map (·.1)).Nodup) : (sortKeys h).Sorted := by
  induction h with
  | nil => simp [sortKeys, TimeHist.Sorted]
  | cons p h ih =>
    rw [List.map_cons, List.nodup_cons] at hk
    refine insertKey_sorted (ih hk.2) ?_
    intro q hq he
    exact hk.1 (List.mem_map.2 ⟨q, (sortKeys_perm h).mem_iff.1 hq, he⟩)

/-- Number of the bucket of a time. -/
def bucketOf (t : Int) : Nat := histBounds.countP fun b => decide (b ≤ t)

theorem sorted_countP (l : List Int) (h : l.Pairwise (· < ·)) (t : Int) : ∀ j (hj : j < l.length),
    l[j] ≤ t ↔ j < l.countP fun b => decide (b ≤ t) := by
  induction l with
  | nil => intro j hj; cases hj
  | cons b l ih =>
    intro j hj
    rw [List.pairwise_cons] at h
    by_cases hb : b ≤ t
    · rw [List.countP_cons_of_pos (by simpa using hb)]
      cases j with
      | zero => simp [hb]
      | succ j =>
        have := ih h.2 j (by simpa using hj)
        simp only [List.getElem_cons_succ]
        omega
    · rw [List.countP_cons_of_neg (by simpa using hb)]
      have hz : l.countP (fun b => decide (b ≤ t)) = 0 := by
        rw [List.countP_eq_zero]
        intro x hx
        have := h.1 x hx
        simp
        omega
      rw [hz]
      cases j with
      | zero => simp [hb]
      | succ j =>
        have hj' : j < l.length := by simpa using hj
        have := h.1 l[j] (List.getElem_mem hj')
        simp only [List.getElem_cons_succ]
        omega

theorem bounds_sorted : histBounds.Pairwise (· < ·) := by decide

theorem bucketOf_le (t : Int) : bucketOf t ≤ histBounds.length := List.countP_le_length

theorem bound_le (t : Int) {j : Nat} (hj : j < histBounds.length) : histBounds.getD j 0 ≤ t ↔ j < bucketOf t := by
  have : histBounds.getD j 0 = histBounds[j] := by simp [List.getD_eq_getElem?_getD, hj]
  rw [this]
  exact sorted_countP histBounds bounds_sorted t j hj

theorem nextBucket_eq (t : Int) : ∀ (fuel i : Nat), i ≤ bucketOf t → bucketOf t < i + fuel → nextBucket t fuel i = bucketOf t := by
  intro fuel
  induction fuel with
  | zero => intro i h1 h2; omega
  | succ fuel ih =>
    intro i h1 h2
    unfold nextBucket
    have hle := bucketOf_le t
    by_cases hi : i < bucketOf t
    · rw [if_pos ⟨by omega, (bound_le t (by omega)).2 hi⟩]
      exact ih (i + 1) (by omega) (by omega)
    · rw [if_neg]
      · omega
      · rintro ⟨h3, h4⟩
        exact hi ((bound_le t h3).1 h4)

theorem bucketOf_mono {a b : Int} (h : a ≤ b) : bucketOf a ≤ bucketOf b := by
  refine List.countP_mono_left fun x _ hx => ?_
  simp only [decide_eq_true_eq] at hx ⊢
  omega

/-- A time belongs into the bucket. -/
def InBucket (j : Nat) (t : Int) : Prop := bucketStart j ≤ t ∧ ∀ b, bucketEnd j = some b → t < b

theorem inBucket_iff {j : Nat} (hj : j ≤ histBounds.length) {t : Int} (ht : 0 ≤ t) : InBucket j t ↔ bucketOf t = j := by
  unfold InBucket bucketStart bucketEnd
  have hle := bucketOf_le t
  constructor
  · rintro ⟨h1, h2⟩
    have h3 : j ≤ bucketOf t := by
      by_cases h0 : j = 0
      · omega
      · rw [if_neg h0] at h1
        have := (bound_le t (j := j - 1) (by omega)).1 h1
        omega
    by_cases h4 : j < histBounds.length
    · have := h2 _ (if_pos h4)
      have h5 : ¬ j < bucketOf t := fun h => by
        have := (bound_le t h4).2 h
        omega
      omega
    · omega
  · intro h
    refine ⟨?_, ?_⟩
    · split
      · exact ht
      · exact (bound_le t (by omega)).2 (by omega)
    · intro b hb
      split at hb
      · rename_i h4
        cases hb
        have := (bound_le t h4).not.2 (by omega)
        omega
      · cases hb

/-- What is printed for a percentile. -/
def pctList (p : Int) : Int → TimeHist → List Int
  | _, [] => []
  | r, (t, v) :: h => (if hitsPct p r v then [t] else []) ++ pctList p (r + v) h

theorem pctList_nil {p r : Int} {h : TimeHist} (hv : ∀ q ∈ h, 0 < q.2) (hp : p ≤ r) : pctList p r h = [] := by
  induction h generalizing r with
  | nil => rfl
  | cons q h ih =>
    obtain ⟨t, v⟩ := q
    have h0 : 0 < v := hv (t, v) (by simp)
    unfold pctList
    rw [ih (fun q hq => hv q (by simp [hq])) (by omega)]
    have : hitsPct p r v = false := by unfold hitsPct; simp; omega
    simp [this]

theorem pctList_one {p : Int} {h : TimeHist} (hs : h.Sorted) (hv : ∀ q ∈ h, 0 < q.2) : ∀ {r : Int}, r < p → p ≤ r + h.total (fun _ => True) →
    ∃ t, pctList p r h = [t] ∧ r + h.total (· < t) < p ∧ p ≤ r + h.total (· ≤ t) ∧ ∃ v, (t, v) ∈ h := by
  induction h with
  | nil => intro r h1 h2; simp [TimeHist.total] at h2; omega
  | cons q h ih =>
    obtain ⟨t, v⟩ := q
    intro r h1 h2
    have h0 : 0 < v := hv (t, v) (by simp)
    have hs' := List.pairwise_cons.1 hs
    simp only [TimeHist.total, if_true] at h2
    unfold pctList
    by_cases hp : p ≤ r + v
    · have e1 : hitsPct p r v = true := by unfold hitsPct; simp; omega
      have e2 := pctList_nil (h := h) (fun q hq => hv q (by simp [hq])) hp
      refine ⟨t, by simp [e1, e2], ?_, ?_, v, by simp⟩
      · have : ∀ l : TimeHist, (∀ q ∈ l, t < q.1) → l.total (· < t) = 0 := by
          intro l hl
          induction l with
          | nil => rfl
          | cons q l ihl =>
            have := hl q (by simp)
            unfold TimeHist.total
            rw [ihl fun q hq => hl q (by simp [hq]), if_neg (by omega)]
            rfl
        simp only [TimeHist.total, lt_irrefl, if_false]
        rw [this h hs'.1]
        omega
      · have : ∀ l : TimeHist, (∀ q ∈ l, 0 < q.2) → 0 ≤ l.total (· ≤ t) := by
          intro l hl
          induction l with
          | nil => simp [TimeHist.total]
          | cons q l ihl =>
            have h3 := hl q (by simp)
            have h4 := ihl fun q hq => hl q (by simp [hq])
            unfold TimeHist.total
            split <;> omega
        have h3 := this h fun q hq => hv q (by simp [hq])
        simp only [TimeHist.total, le_refl, if_true]
        omega
    · have e1 : hitsPct p r v = false := by unfold hitsPct; simp; omega
      obtain ⟨t', a1, a2, a3, v', a4⟩ := ih hs'.2 (fun q hq => hv q (by simp [hq])) (r := r + v) (by omega) (by omega)
      have hlt := hs'.1 _ a4
      dsimp at hlt
      refine ⟨t', by simp [e1, a1], ?_, ?_, v', by simp [a4]⟩
      · simp only [TimeHist.total]
        rw [if_pos hlt]
        omega
      · simp only [TimeHist.total]
        rw [if_pos (by omega)]
        omega

theorem printLoop_spec (p50 p95 p99 : Int) {h : TimeHist} (hs : h.Sorted) (hp : ∀ q ∈ h, 0 ≤ q.1) : ∀ a : PrintAcc,
    (∀ q ∈ h, a.idx ≤ bucketOf q.1) → a.buckets.length = histBounds.length + 1 →
    ∃ a', printLoop p50 p95 p99 a h = .ok a' ∧ a'.p50 = a.p50 ++ pctList p50 a.running h ∧ a'.p95 = a.p95 ++ pctList p95 a.running h ∧
      a'.p99 = a.p99 ++ pctList p99 a.running h ∧ a'.buckets.length = histBounds.length + 1 ∧
      ∀ j, j ≤ histBounds.length → a'.buckets.getD j 0 = a.buckets.getD j 0 + h.total (fun t => bucketOf t = j) := by
  induction h with
  | nil => intro a _ hl; exact ⟨a, rfl, by simp [pctList], by simp [pctList], by simp [pctList], hl, fun j _ => by simp [TimeHist.total]⟩
  | cons q h ih =>
    obtain ⟨t, v⟩ := q
    intro a hi hl
    have hs' := List.pairwise_cons.1 hs
    have h0 : 0 ≤ t := hp (t, v) (by simp)
    have hidx : nextBucket t (histBounds.length + 1) a.idx = bucketOf t :=
      nextBucket_eq t _ _ (hi (t, v) (by simp)) (by have := bucketOf_le t; omega)
    unfold printLoop
    rw [if_neg (by omega)]
    simp only [hidx]
    obtain ⟨a', b1, b2, b3, b4, b5, b6⟩ := ih hs'.2 (fun q hq => hp q (by simp [hq]))
      { idx := bucketOf t, running := a.running + v, buckets := a.buckets.set (bucketOf t) (a.buckets.getD (bucketOf t) 0 + v)
        p50 := if hitsPct p50 a.running v then a.p50 ++ [t] else a.p50
        p95 := if hitsPct p95 a.running v then a.p95 ++ [t] else a.p95
        p99 := if hitsPct p99 a.running v then a.p99 ++ [t] else a.p99 }
      (fun q hq => bucketOf_mono (by have := hs'.1 q hq; dsimp at this; omega)) (by simpa using hl)
    refine ⟨a', b1, ?_, ?_, ?_, b5, ?_⟩
    · rw [b2]; simp only [pctList]; split <;> simp
    · rw [b3]; simp only [pctList]; split <;> simp
    · rw [b4]; simp only [pctList]; split <;> simp
    · intro j hj
      rw [b6 j hj]
      simp only [TimeHist.total]
      by_cases he : bucketOf t = j
      · subst he
        have : bucketOf t < a.buckets.length := by omega
        simp [List.getD_eq_getElem?_getD, List.getElem?_set, this]
        omega
      · simp [List.getD_eq_getElem?_getD, List.getElem?_set, he]

/-- The line that is printed for a type with calls. -/
theorem print_spec {m : Int} {s : PerfStat} {l : List Int} (h : RepStat m s l) (hl : l ≠ []) (hc : ∀ c ∈ l, 0 ≤ c) (p50 p95 p99 : Int) :
    ∃ line, s.print p50 p95 p99 = .ok (some line) ∧ line.ncalls = s.count ∧ line.sum = s.sum ∧ line.min = s.min ∧ line.max = s.max ∧
      line.p50 = pctList p50 0 (sortKeys s.hist) ∧ line.p95 = pctList p95 0 (sortKeys s.hist) ∧ line.p99 = pctList p99 0 (sortKeys s.hist) ∧
      line.buckets = ((List.range (histBounds.length + 1)).filter fun j => decide (numCalls (fun t => bucketOf t = j) l ≠ 0)).map fun j =>
        (bucketStart j, bucketEnd j, numCalls (fun t => bucketOf t = j) l) := by
  have hpos : ∀ q ∈ sortKeys s.hist, 0 ≤ q.1 := by
    intro q hq
    by_contra hneg
    have h1 := (sortKeys_perm s.hist).mem_iff.1 hq
    have h2 : 0 < s.hist.total (fun t => t = q.1) := by
      have : ∀ g : TimeHist, (∀ p ∈ g, 0 < p.2) → q ∈ g → 0 < g.total (fun t => t = q.1) := by
        have nn : ∀ g : TimeHist, (∀ p ∈ g, 0 < p.2) → 0 ≤ g.total (fun t => t = q.1) := by
          intro g hg
          induction g with
          | nil => simp [TimeHist.total]
          | cons p g ih =>
            have a1 := hg p (by simp)
            have a2 := ih fun x hx => hg x (by simp [hx])
            unfold TimeHist.total
            split <;> omega
        intro g hg hm
        induction g with
        | nil => cases hm
        | cons p g ih =>
          have a1 := hg p (by simp)
          have a2 := nn g fun x hx => hg x (by simp [hx])
          unfold TimeHist.total
          rcases List.mem_cons.1 hm with rfl | hm
          · rw [if_pos rfl]; omega
          · have a3 := ih (fun x hx => hg x (by simp [hx])) hm
            split <;> omega
      exact this s.hist h.keys.2 h1
    rw [h.total] at h2
    have h3 : numCalls (fun t => t = q.1) l = 0 := by
      unfold numCalls
      rw [List.countP_eq_zero.2]
      · rfl
      · intro c hcm
        have := hc c hcm
        simp
        omega
    omega
  obtain ⟨a, b1, b2, b3, b4, b5, b6⟩ := printLoop_spec p50 p95 p99 (sortKeys_sorted h.keys.1) hpos
    { buckets := List.replicate (histBounds.length + 1) 0 } (fun q _ => Nat.zero_le _) (by simp)
  have hb : ∀ j, j < histBounds.length + 1 → a.buckets.getD j 0 = numCalls (fun t => bucketOf t = j) l := by
    intro j hj
    rw [b6 j (by omega), sortKeys_total, h.total]
    simp [List.getD_eq_getElem?_getD, List.getElem?_replicate, hj]
  unfold PerfStat.print
  rw [if_neg (by rw [h.count]; have := List.length_pos_iff.2 hl; omega), b1]
  refine ⟨_, rfl, rfl, rfl, rfl, rfl, by simpa using b2, by simpa using b3, by simpa using b4, ?_⟩
  dsimp only
  have hf : ((List.range (histBounds.length + 1)).filter fun j => decide (a.buckets.getD j 0 ≠ 0)) =
      ((List.range (histBounds.length + 1)).filter fun j => decide (numCalls (fun t => bucketOf t = j) l ≠ 0)) := by
    refine List.filter_congr fun j hj => ?_
    rw [hb j (List.mem_range.1 hj)]
  rw [hf]
  refine List.map_congr_left fun j hj => ?_
  rw [hb j (List.mem_range.1 (List.mem_filter.1 hj).1)]

/-! ### The properties -/

instance (j : Nat) (t : Int) : Decidable (InBucket j t) :=
  inferInstanceAs (Decidable (bucketStart j ≤ t ∧ ∀ b, bucketEnd j = some b → t < b))

theorem callsOf_nonneg {i : Nat} {threads : List (List (Nat × Int))} (hc : ∀ l ∈ threads, ∀ c ∈ l, 0 ≤ c.2) :
    ∀ c ∈ callsOf i threads, 0 ≤ c := by
  intro c hm
  unfold callsOf at hm
  obtain ⟨x, hx, rfl⟩ := List.mem_map.1 hm
  obtain ⟨l, hl, hxl⟩ := List.mem_flatten.1 (List.mem_filter.1 hx).1
  exact hc l hl x hxl

theorem foldl_max_spec (l : List Int) : ∀ a : Int, (l.foldl Max.max a = a ∨ l.foldl Max.max a ∈ l) ∧ a ≤ l.foldl Max.max a ∧
    ∀ c ∈ l, c ≤ l.foldl Max.max a := by
  induction l with
  | nil => intro a; simp
  | cons d l ih =>
    intro a
    obtain ⟨h1, h2, h3⟩ := ih (Max.max a d)
    rw [List.foldl_cons]
    refine ⟨?_, by omega, ?_⟩
    · rcases h1 with h1 | h1
      · rw [h1]
        by_cases had : d ≤ a
        · exact .inl (by omega)
        · exact .inr (by rw [show Max.max a d = d by omega]; simp)
      · exact .inr (by simp [h1])
    · intro c hc
      rcases List.mem_cons.1 hc with rfl | hc
      · omega
      · exact h3 c hc

theorem foldl_min_spec (l : List Int) : ∀ a : Int, (l.foldl Min.min a = a ∨ l.foldl Min.min a ∈ l) ∧ l.foldl Min.min a ≤ a ∧
    ∀ c ∈ l, l.foldl Min.min a ≤ c := by
  induction l with
  | nil => intro a; simp
  | cons d l ih =>
    intro a
    obtain ⟨h1, h2, h3⟩ := ih (Min.min a d)
    rw [List.foldl_cons]
    refine ⟨?_, by omega, ?_⟩
    · rcases h1 with h1 | h1
      · rw [h1]
        by_cases had : a ≤ d
        · exact .inl (by omega)
        · exact .inr (by rw [show Min.min a d = d by omega]; simp)
      · exact .inr (by simp [h1])
    · intro c hc
      rcases List.mem_cons.1 hc with rfl | hc
      · omega
      · exact h3 c hc

/-- **C93.** Whatever calls any number of threads made, a type of call of which there was none is not printed, and
for the others the printed number, sum and maximum are those of the calls: the maximum is the duration of a call and no
call took longer. Printing never fails. -/
theorem C93_counts (threads : List (List (Nat × Int))) (hc : ∀ l ∈ threads, ∀ c ∈ l, 0 ≤ c.2) (i : Nat) (p50 p95 p99 : Int) :
    (callsOf i threads = [] → (mergeReports threads i).print p50 p95 p99 = .ok none) ∧
    (callsOf i threads ≠ [] → ∃ line, (mergeReports threads i).print p50 p95 p99 = .ok (some line) ∧
      line.ncalls = (callsOf i threads).length ∧ line.sum = (callsOf i threads).sum ∧
      line.max ∈ callsOf i threads ∧ ∀ c ∈ callsOf i threads, c ≤ line.max) := by
  have h := rep_reports i threads hc
  have hn := callsOf_nonneg (i := i) hc
  refine ⟨fun he => ?_, fun hne => ?_⟩
  · unfold PerfStat.print
    rw [if_pos (by rw [h.count, he]; rfl)]
  · obtain ⟨line, h1, h2, h3, h4, h5, -⟩ := print_spec h hne hn p50 p95 p99
    obtain ⟨m1, m2, m3⟩ := foldl_max_spec (callsOf i threads) 0
    refine ⟨line, h1, by rw [h2, h.count], by rw [h3, h.sum], ?_, ?_⟩
    · rw [h5, h.max]
      rcases m1 with m1 | m1
      · rw [m1]
        obtain ⟨c, hcm⟩ := List.exists_mem_of_ne_nil _ hne
        have := m3 c hcm
        have h0 := hn c hcm
        have : c = 0 := by omega
        rwa [this] at hcm
      · exact m1
    · rw [h5, h.max]; exact m3

/-- **C93.** The histogram: a bucket is printed exactly if some call took that long, in ascending order, with the number of
calls that took so many whole milliseconds. -/
theorem C93_histogram (threads : List (List (Nat × Int))) (hc : ∀ l ∈ threads, ∀ c ∈ l, 0 ≤ c.2) (i : Nat) (p50 p95 p99 : Int)
    (line : PerfLine) (hl : (mergeReports threads i).print p50 p95 p99 = .ok (some line)) :
    line.buckets = (((List.range 56).map fun j => (bucketStart j, bucketEnd j, numCalls (InBucket j) (callsOf i threads))).filter
      fun b => decide (b.2.2 ≠ 0)) ∧
    ∀ c ∈ callsOf i threads, ∃ j, j < 56 ∧ InBucket j (c / 1000) ∧ ∀ k, k < 56 → InBucket k (c / 1000) → k = j := by
  have h := rep_reports i threads hc
  have hn := callsOf_nonneg (i := i) hc
  have hne : callsOf i threads ≠ [] := by
    intro he
    rw [(C93_counts threads hc i p50 p95 p99).1 he] at hl
    cases hl
  obtain ⟨line', h1, -, -, -, -, -, -, -, h2⟩ := print_spec h hne hn p50 p95 p99
  rw [h1] at hl
  cases hl
  refine ⟨?_, ?_⟩
  · rw [h2, List.filter_map]
    have e : ∀ j ∈ List.range 56, numCalls (fun t => bucketOf t = j) (callsOf i threads) = numCalls (InBucket j) (callsOf i threads) := by
      intro j hj
      have hj' : j < 56 := List.mem_range.1 hj
      unfold numCalls
      congr 1
      refine List.countP_congr fun c hcm => ?_
      simp only [decide_eq_true_eq]
      exact (inBucket_iff (by show j ≤ 55; omega) (by have := hn c hcm; omega)).symm
    have hf : ((List.range (histBounds.length + 1)).filter fun j => decide (numCalls (fun t => bucketOf t = j) (callsOf i threads) ≠ 0)) =
        ((List.range 56).filter ((fun b : Int × Option Int × Int => decide (b.2.2 ≠ 0)) ∘
          fun j => (bucketStart j, bucketEnd j, numCalls (InBucket j) (callsOf i threads)))) := by
      refine List.filter_congr fun j hj => ?_
      simp only [Function.comp]
      rw [e j hj]
    rw [hf]
    refine List.map_congr_left fun j hj => ?_
    rw [e j (List.mem_filter.1 hj).1]
  · intro c hcm
    have h0 : 0 ≤ c / 1000 := by have := hn c hcm; omega
    have hle := bucketOf_le (c / 1000)
    have h55 : histBounds.length = 55 := rfl
    refine ⟨bucketOf (c / 1000), by omega, (inBucket_iff hle h0).2 rfl, fun k hk hin => ?_⟩
    exact ((inBucket_iff (by omega) h0).1 hin).symm

/-- The value printed for a percentile `p`, in calls: fewer than `p` calls took less, at least `p` took at most as long. -/
def IsPercentile (p : Int) (l : List Int) (t : Int) : Prop := numCalls (· < t) l < p ∧ p ≤ numCalls (· ≤ t) l

theorem numCalls_true (l : List Int) : numCalls (fun _ => True) l = l.length := by simp [numCalls]

/-- **C93.** The percentiles: for a rank between one and the number of calls exactly one value is printed, and it is that
percentile. For rank 0, nothing is printed. -/
theorem C93_percentile (threads : List (List (Nat × Int))) (hc : ∀ l ∈ threads, ∀ c ∈ l, 0 ≤ c.2) (i : Nat) (p50 p95 p99 : Int)
    (line : PerfLine) (hl : (mergeReports threads i).print p50 p95 p99 = .ok (some line)) :
    ∀ p out, (p, out) ∈ [(p50, line.p50), (p95, line.p95), (p99, line.p99)] →
      (p ≤ 0 → out = []) ∧
      (0 < p → p ≤ (callsOf i threads).length → ∃ t, out = [t] ∧ IsPercentile p (callsOf i threads) t) := by
  have h := rep_reports i threads hc
  have hn := callsOf_nonneg (i := i) hc
  have hne : callsOf i threads ≠ [] := by
    intro he
    rw [(C93_counts threads hc i p50 p95 p99).1 he] at hl
    cases hl
  obtain ⟨line', h1, -, -, -, -, h2, h3, h4, -⟩ := print_spec h hne hn p50 p95 p99
  rw [h1] at hl
  cases hl
  have hv : ∀ q ∈ sortKeys (mergeReports threads i).hist, 0 < q.2 := fun q hq => h.keys.2 q ((sortKeys_perm _).mem_iff.1 hq)
  have key : ∀ p : Int, (p ≤ 0 → pctList p 0 (sortKeys (mergeReports threads i).hist) = []) ∧
      (0 < p → p ≤ (callsOf i threads).length →
        ∃ t, pctList p 0 (sortKeys (mergeReports threads i).hist) = [t] ∧ IsPercentile p (callsOf i threads) t) := by
    intro p
    refine ⟨fun hp => pctList_nil hv hp, fun h5 h6 => ?_⟩
    obtain ⟨t, t1, t2, t3, -⟩ := pctList_one (sortKeys_sorted h.keys.1) hv (r := 0) h5
      (by rw [sortKeys_total, h.total, numCalls_true]; omega)
    rw [sortKeys_total, h.total] at t2 t3
    exact ⟨t, t1, by omega, by omega⟩
  intro p out hm
  simp only [List.mem_cons, List.not_mem_nil, or_false, Prod.mk.injEq] at hm
  rcases hm with ⟨rfl, rfl⟩ | ⟨rfl, rfl⟩ | ⟨rfl, rfl⟩
  · rw [h2]; exact key _
  · rw [h3]; exact key _
  · rw [h4]; exact key _

/-- **C93** (partial: only for the first type, reads from sockets). The printed minimum is the duration of a call, and no call
was shorter. -/
theorem C93_min_partial (threads : List (List (Nat × Int))) (hc : ∀ l ∈ threads, ∀ c ∈ l, 0 ≤ c.2 ∧ c.2 ≤ maxInt64) (p50 p95 p99 : Int)
    (line : PerfLine) (hl : (mergeReports threads 0).print p50 p95 p99 = .ok (some line)) :
    line.min ∈ callsOf 0 threads ∧ ∀ c ∈ callsOf 0 threads, line.min ≤ c := by
  have hc' : ∀ l ∈ threads, ∀ c ∈ l, 0 ≤ c.2 := fun l h1 c h2 => (hc l h1 c h2).1
  have h := rep_reports 0 threads hc'
  have hne : callsOf 0 threads ≠ [] := by
    intro he
    rw [(C93_counts threads hc' 0 p50 p95 p99).1 he] at hl
    cases hl
  obtain ⟨line', h1, -, -, h4, -⟩ := print_spec h hne (callsOf_nonneg hc') p50 p95 p99
  rw [h1] at hl
  cases hl
  obtain ⟨m1, m2, m3⟩ := foldl_min_spec (callsOf 0 threads) (startMin 0)
  rw [h4, h.min]
  refine ⟨?_, m3⟩
  rcases m1 with m1 | m1
  · obtain ⟨c, hcm⟩ := List.exists_mem_of_ne_nil _ hne
    have h5 := m3 c hcm
    have h6 : c ≤ maxInt64 := by
      obtain ⟨x, hx, rfl⟩ := List.mem_map.1 (show c ∈ (threads.flatten.filter fun c => decide (c.1 = 0)).map (·.2) from hcm)
      obtain ⟨l, hl, hxl⟩ := List.mem_flatten.1 (List.mem_filter.1 hx).1
      exact (hc l hl x hxl).2
    have h7 : startMin 0 = maxInt64 := rfl
    rw [m1]
    have : startMin 0 = c := by omega
    rw [this]
    exact hcm
  · exact m1

/-- **C93 is violated** by the printed minimum of every other type: it is 0, however long the calls took. -/
theorem C93_violated_min (threads : List (List (Nat × Int))) (hc : ∀ l ∈ threads, ∀ c ∈ l, 0 ≤ c.2) (i : Nat) (hi : i ≠ 0)
    (p50 p95 p99 : Int) (line : PerfLine) (hl : (mergeReports threads i).print p50 p95 p99 = .ok (some line)) : line.min = 0 := by
  have h := rep_reports i threads hc
  have hne : callsOf i threads ≠ [] := by
    intro he
    rw [(C93_counts threads hc i p50 p95 p99).1 he] at hl
    cases hl
  obtain ⟨line', h1, -, -, h4, -⟩ := print_spec h hne (callsOf_nonneg hc) p50 p95 p99
  rw [h1] at hl
  cases hl
  obtain ⟨m1, m2, m3⟩ := foldl_min_spec (callsOf i threads) (startMin i)
  rw [h4, h.min]
  have h7 : startMin i = 0 := by unfold startMin; rw [if_neg hi]
  rw [h7] at m1 m2 m3 ⊢
  rcases m1 with m1 | m1
  · exact m1
  · have := callsOf_nonneg hc _ m1
    omega

/-- Two threads: reads of 1.5 ms and 3 ms, a read of 1 ms, and writes of 5 s. -/
def perfSample : List (List (Nat × Int)) := [[(0, 1500), (1, 5000000), (0, 3000)], [(0, 1000), (1, 5000000)]]

example : ((mergeReports perfSample 0).print 1 2 3).toOption =
    some (some { ncalls := 3, min := 1000, max := 3000, sum := 5500, p50 := [1], p95 := [1], p99 := [3]
                 buckets := [(1, some 2, 2), (3, some 4, 1)] }) := by decide +kernel

example : ∀ l ∈ perfSample, ∀ c ∈ l, 0 ≤ c.2 ∧ c.2 ≤ maxInt64 := by decide

example : ((mergeReports perfSample 1).print 1 1 1).toOption.map (·.map (·.min)) = some (some 0) := by decide +kernel

end Wdt
