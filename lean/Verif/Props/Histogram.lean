import Verif.Lemmas.TlHist
/-
C100: counters and histograms say what was recorded.
-/
namespace Wdt

/-- **C100**, one histogram: whatever is recorded, nothing is lost and every value is counted in its
bucket, `scale` times the bounds of the table plus the offset; number and sum are right, and so
are the greatest, the smallest, and the smallest that is not 0. -/
theorem C100_recorded (scale offset : Int) (hd : 0 < scale) (vs : List Int) :
    ∃ h, ({ divider := scale, offset := offset } : Histo).recordAll vs = .ok h ∧
      h.ctr.count = vs.length ∧ h.ctr.sum = vs.sum ∧ h.data.length = bucketBounds.length + 1 ∧
      (∀ i ≤ bucketBounds.length, h.data[i]? = some ((vs.filter fun v =>
        (i = 0 || bucketBounds.getD (i - 1) 0 * scale + offset ≤ v) &&
        (i = bucketBounds.length || v < bucketBounds.getD i 0 * scale + offset)).length : Int)) ∧
      (vs ≠ [] → (h.ctr.max ∈ vs ∧ ∀ v ∈ vs, v ≤ h.ctr.max) ∧ (h.ctr.realMin ∈ vs ∧ ∀ v ∈ vs, h.ctr.realMin ≤ v) ∧
        (h.ctr.min ∈ vs ∧ ∀ v ∈ vs, v ≠ 0 → h.ctr.min ≤ v ∧ h.ctr.min ≠ 0)) := by
  obtain ⟨h, e, H⟩ := (histOf_new scale offset).recordAll hd vs
  rw [List.nil_append] at H
  refine ⟨h, e, H.ctr.count, H.ctr.sum, H.length, fun i hi => ?_, fun hne => ⟨H.ctr.max hne, H.ctr.realMin hne, H.ctr.min hne⟩⟩
  have hb : bucketBounds.length = 55 := rfl
  have h1 := H.data i (by omega)
  rw [List.getD_eq_getElem?_getD, List.getElem?_eq_getElem (by rw [H.length]; omega)] at h1
  rw [List.getElem?_eq_getElem (by rw [H.length]; omega)]
  simp only [Option.getD_some] at h1
  rw [h1, List.countP_eq_length_filter]
  congr 4
  funext v
  unfold InSlot vbnd bnd
  rw [hb]
  by_cases a : i = 0 <;> by_cases b : i = 55 <;> simp [a, b]

/-- Case: numbers from 1 to 10 as in the comment on `print`. -/
example : (({} : Histo).recordAll [1, 2, 3, 4, 5, 6, 7, 8, 9, 10]).toOption.map (fun h => (h.ctr, h.data.take 13)) =
    some (⟨10, 1, 1, 10, 55, 385⟩, [0, 1, 1, 1, 1, 1, 1, 1, 1, 1, 1, 0, 0]) := by decide +kernel

/-- **C100**, percentiles (partial: the data are not all negative, and neither is the end of the first bucket,
see `C100_violated_negative`).  A percentile lies between two recorded values; it grows with the percentage;
100 per cent is the greatest, 0 per cent the smallest value; and it is in the right bucket: no bound of the
table lies between it and a value `q` that is a percentile by definition. -/
theorem C100_percentile_partial (scale offset : Int) (hd : 0 < scale) (ho : 0 ≤ scale + offset) (vs : List Int)
    (hz : ∃ v ∈ vs, 0 ≤ v) :
    ∃ h, ({ divider := scale, offset := offset } : Histo).recordAll vs = .ok h ∧
      (∀ p, (∃ v ∈ vs, (v : ℚ) ≤ h.percentile p) ∧ ∃ v ∈ vs, h.percentile p ≤ v) ∧
      (∀ p p', p ≤ p' → h.percentile p ≤ h.percentile p') ∧
      (∃ v ∈ vs, h.percentile 100 = v ∧ ∀ w ∈ vs, w ≤ v) ∧ (∃ v ∈ vs, h.percentile 0 = v ∧ ∀ w ∈ vs, v ≤ w) ∧
      ∀ p, 0 < p → p < 100 → ∀ q ∈ vs,
        100 * ((vs.filter fun v => decide (v < q)).length : ℚ) < p * vs.length →
        p * vs.length ≤ 100 * ((vs.filter fun v => decide (v ≤ q)).length : ℚ) →
        ∀ b ∈ bucketBounds, (q < b * scale + offset → h.percentile p ≤ ((b * scale + offset : Int) : ℚ)) ∧
          (b * scale + offset ≤ q → ((b * scale + offset : Int) : ℚ) ≤ h.percentile p) := by
  obtain ⟨h, e, H⟩ := (histOf_new scale offset).recordAll hd vs
  rw [List.nil_append] at H
  obtain ⟨v0, hv0, hz0⟩ := hz
  have hne : vs ≠ [] := by rintro rfl; simp at hv0
  obtain ⟨m1, m2⟩ := H.ctr.max hne
  obtain ⟨n1, n2⟩ := H.ctr.realMin hne
  have hmx : 0 ≤ h.ctr.max := le_trans hz0 (m2 v0 hv0)
  have hmm : h.ctr.realMin ≤ h.ctr.max := n2 _ m1
  have hstop : ∀ p : ℚ, 0 < p → p < 100 → ∃ j r, PercStop scale offset vs h.ctr.max p j r ∧
      PercGood h.ctr.realMin h.ctr.max p r ∧ h.percentile p = r.value h.ctr.realMin p := by
    intro p h0 h1
    obtain ⟨j, s⟩ := percLoop_stop hd H p 55 0 0 0 0 rfl (fun k hk => by omega) rfl rfl rfl
    refine ⟨j, _, s, s.good hd hne h0 h1 n2 hmm hmx ho, ?_⟩
    unfold Histo.percentile
    rw [if_neg (by simp; exact h1), if_neg (by simp; exact h0)]
    rfl
  have htop : ∀ p : ℚ, 100 ≤ p → h.percentile p = h.ctr.max := by
    intro p hp; unfold Histo.percentile; rw [if_pos hp]
  have hbot : ∀ p : ℚ, p ≤ 0 → h.percentile p = h.ctr.realMin := by
    intro p hp; unfold Histo.percentile; rw [if_neg (by simp; linarith), if_pos hp]
  have hrange : ∀ p : ℚ, (h.ctr.realMin : ℚ) ≤ h.percentile p ∧ h.percentile p ≤ h.ctr.max := by
    intro p
    have hmm' : ((h.ctr.realMin : Int) : ℚ) ≤ ((h.ctr.max : Int) : ℚ) := by exact_mod_cast hmm
    by_cases a : 100 ≤ p
    · rw [htop p a]; exact ⟨hmm', le_refl _⟩
    · by_cases b : p ≤ 0
      · rw [hbot p b]; exact ⟨le_refl _, hmm'⟩
      · obtain ⟨j, r, _, g, e⟩ := hstop p (by linarith) (by linarith)
        rw [e]
        have g1 : ((h.ctr.realMin : Int) : ℚ) ≤ ((r.lo h.ctr.realMin : Int) : ℚ) := by exact_mod_cast g.lo
        have g2 : ((r.cur : Int) : ℚ) ≤ ((h.ctr.max : Int) : ℚ) := by exact_mod_cast g.hi
        exact ⟨le_trans g1 g.value_ge, le_trans g.value_le g2⟩
  refine ⟨h, e, fun p => ⟨⟨_, n1, (hrange p).1⟩, ⟨_, m1, (hrange p).2⟩⟩, fun p p' hpp => ?_,
    ⟨_, m1, htop 100 (le_refl _), m2⟩, ⟨_, n1, hbot 0 (le_refl _), n2⟩, ?_⟩
  · by_cases a : 100 ≤ p'
    · rw [htop p' a]; exact (hrange p).2
    · by_cases b : p ≤ 0
      · rw [hbot p b]; exact (hrange p').1
      · obtain ⟨j, r, s, g, e1⟩ := hstop p (by linarith) (by linarith)
        obtain ⟨j', r', s', g', e2⟩ := hstop p' (by linarith) (by linarith)
        rw [e1, e2]
        exact PercStop.mono hd hpp s s' g g'
  · intro p h0 h1 q hq c1 c2 b hb
    obtain ⟨i, hi, rfl⟩ := List.getElem_of_mem hb
    have hl : bucketBounds.length = 55 := rfl
    obtain ⟨j, r, s, g, e1⟩ := hstop p h0 h1
    rw [e1]
    have := s.bucket hd hne g m2 hq (by rw [List.countP_eq_length_filter]; exact c1) (by rw [List.countP_eq_length_filter]; exact c2) (i := i) (by omega)
    unfold vbnd bnd at this
    rw [List.getD_eq_getElem?_getD, List.getElem?_eq_getElem hi, Option.getD_some] at this
    exact this

/-- Case: the numbers of `HistogramPercentile` in Stats_test.cpp. -/
example : (({ divider := 10 } : Histo).recordAll [1, 251, 501, 751, 1001]).toOption.map
      (fun h => [h.percentile 20, h.percentile (201 / 10), h.percentile 50, h.percentile 75, h.percentile (999 / 10)]) =
    some [10, 1001 / 4, 550, 775, 1000995 / 1000] := by decide +kernel

/-- **C100** does not hold for negative data: all values are -1000, and the median is said to be -500. -/
theorem C100_violated_negative :
    (({} : Histo).recordAll [-1000, -1000]).toOption.map (fun h => (h.percentile 50, h.percentile 100)) = some (-500, -1000) := by
  decide +kernel

/-- **C100**, merging (partial: see `C100_violated_merge`).  Number, sum, sum of squares and buckets
of two histograms together are those of one in which all was recorded; and the two are the same if the histogram
that is merged into has the smallest value and one that is not 0, and the other one is not empty. -/
theorem C100_merge_partial (scale offset : Int) (hd : 0 < scale) (vs us : List Int) :
    ∃ a b c, ({ divider := scale, offset := offset } : Histo).recordAll vs = .ok a ∧
      ({ divider := scale, offset := offset } : Histo).recordAll us = .ok b ∧
      ({ divider := scale, offset := offset } : Histo).recordAll (vs ++ us) = .ok c ∧
      (a.merge b).ctr.count = c.ctr.count ∧ (a.merge b).ctr.sum = c.ctr.sum ∧ (a.merge b).ctr.sumSq = c.ctr.sumSq ∧
      (a.merge b).data = c.data ∧
      ((∃ v ∈ vs, v ≠ 0) → us ≠ [] → (∀ u ∈ us, ∃ v ∈ vs, v ≤ u) → a.merge b = c) := by
  obtain ⟨a, ea, ha⟩ := (histOf_new scale offset).recordAll hd vs
  obtain ⟨b, eb, hb⟩ := (histOf_new scale offset).recordAll hd us
  obtain ⟨c, ec, hc⟩ := (histOf_new scale offset).recordAll hd (vs ++ us)
  rw [List.nil_append] at ha hb hc
  refine ⟨a, b, c, ea, eb, ec, ?_, ?_, ?_, ?_, fun h1 h2 h3 => ?_⟩
  · show a.ctr.count + b.ctr.count = _
    rw [ha.ctr.count, hb.ctr.count, hc.ctr.count]; simp
  · show a.ctr.sum + b.ctr.sum = _
    rw [ha.ctr.sum, hb.ctr.sum, hc.ctr.sum]; simp
  · show a.ctr.sumSq + b.ctr.sumSq = _
    rw [ha.ctr.sumSq, hb.ctr.sumSq, hc.ctr.sumSq]; simp
  · have hl : (a.merge b).data.length = 56 := merge_length ha.length hb.length
    apply List.ext_getElem (by rw [hl, hc.length])
    intro i h1 h2
    have x := getD_zipWith a.data b.data (by rw [ha.length, hb.length]) i
    have hi : i < 56 := by rw [← hl]; exact h1
    rw [ha.data i hi, hb.data i hi] at x
    have y := hc.data i hi
    rw [List.countP_append] at y
    have z : (a.merge b).data.getD i 0 = c.data.getD i 0 := by
      rw [y]; push_cast; exact x
    rw [List.getD_eq_getElem?_getD, List.getD_eq_getElem?_getD, List.getElem?_eq_getElem h1, List.getElem?_eq_getElem h2] at z
    simpa using z
  · rcases h1 with ⟨v, hv, hv0⟩
    have hne : vs ++ us ≠ [] := by intro h; simp at h; exact h2 h.2
    exact HistOf.unique hne (ha.merge hb ⟨v, hv, hv0⟩ h2 h3) hc

/-- Case: all conditions are met. -/
example : (∃ v ∈ ([0, 3] : List Int), v ≠ 0) ∧ ([0, 7] : List Int) ≠ [] ∧ (∀ u ∈ ([0, 7] : List Int), ∃ v ∈ ([0, 3] : List Int), v ≤ u) := by
  decide

/-- **C100** does not hold for merging: merged into a new histogram, as it happens to all data of a histogram for
many threads, values that are all 5 have the minimum 0, and 0 per cent of them is 0; in
one histogram with the value 7 the smallest value stays 7. -/
theorem C100_violated_merge :
    (({} : Histo).recordAll [5, 5]).toOption.map (fun h => ((({} : Histo).merge h).ctr.min, (({} : Histo).merge h).percentile 0,
      h.ctr.min, h.percentile 0)) = some (0, 0, 5, 5) ∧
    (do let a ← (({} : Histo).recordAll [7]).toOption
        let b ← (({} : Histo).recordAll [5]).toOption
        pure ((a.merge b).ctr.min, (a.merge b).ctr.realMin)) = some (5, 7) := by
  decide +kernel

/-- Nobody is in the middle of recording in a histogram of a thread that is being read, which is what the short sleep between the
swap and the reading is for (Stats.h:584-591). -/
def TlHist.calm : TlHist → List TlEvent → Bool
  | _, [] => true
  | s, e :: es =>
    (match e with
      | .take _ => s.inside.all fun o => o.all (· == s.active)
      | _ => true) &&
    match s.step e with
    | some (.ok (s', _)) => s'.calm es
    | _ => true

theorem quiet_of_all {s : TlHist} (h : (s.inside.all fun o => o.all (· == s.active)) = true) : s.quiet := by
  intro t i hi
  have := List.all_eq_true.1 h _ (List.mem_of_getElem? hi)
  simpa using this

theorem TlInv.run (es : List TlEvent) : ∀ {s : TlHist}, 0 < s.scale → ∀ {ds vs}, TlInv s ds vs → s.calm es = true →
    ∀ {r}, s.run es = some r → ∃ s' ds', r = .ok (s', ds') ∧ s'.scale = s.scale ∧ TlInv s' (ds ++ ds') (vs ++ es.filterMap TlEvent.value?) := by
  induction es with
  | nil =>
    intro s hd ds vs I _ r h
    simp only [TlHist.run, Option.some.injEq] at h
    exact ⟨s, [], h.symm, rfl, by simpa using I⟩
  | cons e es ih =>
    intro s hd ds vs I hc r h
    rw [TlHist.run] at h
    unfold TlHist.calm at hc
    rw [Bool.and_eq_true] at hc
    have hq : ∀ t, e = .take t → s.quiet := by
      rintro t rfl
      exact quiet_of_all hc.1
    cases hs : s.step e with
    | none => rw [hs] at h; simp at h
    | some r1 =>
      obtain ⟨s1, d, e1, sc1, I1⟩ := I.step hd hq hs
      subst e1
      rw [hs] at h hc
      simp only at h
      cases hr : s1.run es with
      | none => rw [hr] at h; simp at h
      | some r2 =>
        obtain ⟨s2, ds2, e2, sc2, I2⟩ := ih (by rw [sc1]; exact hd) I1 hc.2 hr
        subst e2
        rw [hr] at h
        simp only [Option.some.injEq] at h
        refine ⟨s2, _, h.symm, by rw [sc2, sc1], ?_⟩
        have e3 : (e :: es).filterMap TlEvent.value? = e.value?.toList ++ es.filterMap TlEvent.value? := by
          rw [List.filterMap_cons]; cases e.value? <;> rfl
        rw [e3, ← List.append_assoc, ← List.append_assoc]
        exact I2

/-- **C100**, many threads (partial: nobody is in the middle of recording when a histogram is read, see
`C100_violated_race`).  Threads record, begin and end in any order while one reads and resets again
and again.  Then all that was delivered, together with what is still to be read, adds up to what one histogram
would have with all the values: their number, sum, squares, and the number in each bucket. -/
theorem C100_threads_partial (scale : Int) (hd : 0 < scale) (n : Nat) (es : List TlEvent) (hc : (TlHist.start scale n).calm es = true)
    (r : Except Fault (TlHist × List Histo)) (h : (TlHist.start scale n).run es = some r) :
    ∃ s ds H, r = .ok (s, ds) ∧ ({ divider := scale } : Histo).recordAll (es.filterMap TlEvent.value?) = .ok H ∧
      (s.pending = none → ∀ k, (ds.map fun x => x.part k).sum + s.aggregated.part k +
        (s.held.map fun o => match o with | none => 0 | some x => x.1.part k + x.2.part k).sum = H.part k) := by
  obtain ⟨s, ds, e, sc, I⟩ := TlInv.run es (s := .start scale n) hd (tlInv_start scale n) hc h
  obtain ⟨H, eH, _, pH⟩ := (histLike_new scale).recordAll hd (es.filterMap TlEvent.value?)
  refine ⟨s, ds, H, e, eH, fun hp k => ?_⟩
  have := I.sum k
  rw [List.nil_append, List.nil_append, sc] at this
  rw [pH, part_new]
  have hpp : s.pendPart k = 0 := by unfold TlHist.pendPart; rw [hp]
  rw [hpp] at this
  have e2 : (fun o : Option Hold2 => match o with | none => (0 : Int) | some x => x.1.part k + x.2.part k) = heldPart k := by
    funext o; cases o <;> rfl
  rw [e2]
  show _ = 0 + (List.map (fun v => partOf (TlHist.start scale n).scale v k) _).sum
  omega

/-- Two threads record, one ends, the other one is read while it goes on. -/
def calmRun : List TlEvent :=
  [.enter 0, .store 0 5, .enter 1, .store 1 700, .exit 1, .swap, .enter 0, .take 0, .store 0 6, .clear 0, .deliver 10]

/-- Case: it is calm; 5 and 700 are delivered, 6 is still to be read. -/
example : (TlHist.start 10 2).calm calmRun = true ∧ ((TlHist.start 10 2).run calmRun).bind (fun r => r.toOption.map fun x =>
    (x.2.map fun h => (h.ctr.count, h.ctr.sum), x.1.held.map fun o => o.map fun y => (y.1.ctr.sum, y.2.ctr.sum))) =
    some ([(2, 705)], [some (0, 6), none]) := by decide +kernel

/-- **C100** does not hold if a thread is in the middle of recording: its value is lost. -/
theorem C100_violated_race :
    ((TlHist.start 1 1).run [.enter 0, .swap, .take 0, .store 0 5, .clear 0, .deliver 1, .swap, .take 0, .clear 0, .deliver 1]).bind
      (fun r => r.toOption.map fun x => (x.2.map fun h => h.ctr.count, x.1.held.map fun o => o.map fun y => (y.1.ctr.count, y.2.ctr.count))) =
    some ([0, 0], [some (0, 0)]) := by
  decide +kernel

/-- **C100** does not hold for the periodic delivery of a histogram with another scale than 1: it delivers a histogram
of scale 1 with the buckets of the other scale.  All values are 505, and the median is said to be 55. -/
theorem C100_violated_scale :
    ((TlHist.start 10 1).run [.enter 0, .store 0 505, .enter 0, .store 0 505, .swap, .take 0, .clear 0, .deliver 1]).bind
      (fun r => r.toOption.map fun x => x.2.map fun h => (h.ctr.count, h.percentile 50)) = some [(2, 55)] := by
  decide +kernel

end Wdt
