import Verif.Model.Progress
import Verif.Props.SenderFinish
import Verif.Props.Reporting
import Verif.Props.DiscoveryReport
/-
C95: what the progress display and the printed report say.
-/
namespace Wdt

/-! ### Bytes reported as sent are between nothing and everything -/

/-- Sizes, and what checkpoints took off them. -/
def sizePot : Pot where
  G := fun _ => True
  CG := HonestClaim
  queueW := fun x => x.size
  openW := fun x => x.size
  curW := fun x => x.size
  histW := fun x => x.size
  failW := fun x => x.size
  createdW := fun x => x.size
  statW := fun _ => 0
  credW := fun c => c.hi - c.lo
  deqW := 0
  stat0 := rfl
  cg_none := fun _ => ⟨Int.le_refl _, Or.inr rfl⟩
  g_create := fun _ _ => trivial
  g_open := fun _ _ => trivial
  g_fail := fun _ _ => trivial
  g_sent := fun _ _ _ => trivial
  g_mark := fun _ _ _ _ _ => trivial
  create := fun _ _ => rfl
  pop := fun _ => rfl
  openOk := fun x _ => by
    unfold openedSource
    split <;> (show x.size = x.size + 0; omega)
  openFail := fun _ _ => rfl
  sent := fun _ _ _ _ _ => rfl
  mark := fun x ts cp _ _ => by
    obtain ⟨h1, h2, _⟩ := markFailed_offset x ts cp
    simp only [creditOf]
    rw [h1, h2]
    omega

/-- Checkpoints that took off less than nothing. -/
def credPot : Pot where
  G := fun _ => True
  CG := HonestClaim
  queueW := fun _ => 0
  openW := fun _ => 0
  curW := fun _ => 0
  histW := fun _ => 0
  failW := fun _ => 0
  createdW := fun _ => 0
  statW := fun _ => 0
  credW := fun c => if c.hi < c.lo then 1 else 0
  deqW := 0
  stat0 := rfl
  cg_none := fun _ => ⟨Int.le_refl _, Or.inr rfl⟩
  g_create := fun _ _ => trivial
  g_open := fun _ _ => trivial
  g_fail := fun _ _ => trivial
  g_sent := fun _ _ _ => trivial
  g_mark := fun _ _ _ _ _ => trivial
  create := fun _ _ => rfl
  pop := fun _ => rfl
  openOk := fun _ _ => rfl
  openFail := fun _ _ => rfl
  sent := fun _ _ _ _ _ => rfl
  mark := fun x ts cp _ hc => by
    obtain ⟨h1, h2, _⟩ := markFailed_offset x ts cp
    obtain ⟨g1, g2⟩ := hc
    have hn : ¬ (creditOf (x, (markFailed x ts cp).1)).hi < (creditOf (x, (markFailed x ts cp).1)).lo := by
      show ¬ (markFailed x ts cp).1.offset < x.offset
      rw [h1]; omega
    rw [if_neg hn]
    rfl

theorem sumOf_nonneg {α : Type} (w : α → Int) (l : List α) (h : ∀ a ∈ l, 0 ≤ w a) : 0 ≤ sumOf w l := by
  induction l with
  | nil => exact Int.le_refl _
  | cons a l ih =>
    rw [sumOf_cons]
    have := h a (by simp)
    have := ih fun b hb => h b (by simp [hb])
    omega

theorem sumOf_filter_le {α : Type} (w : α → Int) (p : α → Bool) (l : List α) (h : ∀ a ∈ l, 0 ≤ w a) :
    sumOf w (l.filter p) ≤ sumOf w l := by
  induction l with
  | nil => exact Int.le_refl _
  | cons a l ih =>
    rw [List.filter_cons, sumOf_cons]
    have := h a (by simp)
    have := ih fun b hb => h b (by simp [hb])
    split
    · rw [sumOf_cons]; omega
    · omega

theorem unsent_le (s : SSys) (h : ∀ x ∈ s.everywhere, 0 ≤ x.size) :
    sumOf (fun x => x.size) s.unsent ≤ sumOf (fun x => x.size) s.everywhere := by
  unfold SSys.unsent SSys.everywhere
  rw [sumOf_append, sumOf_append, sumOf_append, sumOf_append]
  have key : ∀ l : List SThread, (∀ th ∈ l, ∀ x ∈ th.all, 0 ≤ x.size) →
      sumOf (fun x => x.size) (l.flatMap SThread.unsent) ≤ sumOf (fun x => x.size) (l.flatMap SThread.all) := by
    intro l
    induction l with
    | nil => intro _; exact Int.le_refl _
    | cons a l ih =>
      intro hl
      rw [List.flatMap_cons, List.flatMap_cons, sumOf_append, sumOf_append]
      have h1 := ih fun th hth => hl th (by simp [hth])
      have h2 : sumOf (fun x => x.size) a.unsent ≤ sumOf (fun x => x.size) a.all := by
        unfold SThread.unsent SThread.all
        rw [sumOf_append, sumOf_append, sumOf_append, sumOf_append]
        have := sumOf_filter_le (fun x : Source => x.size) (fun x => x.stats.failed) a.hist.history
          (fun x hx => hl a (by simp) x (by unfold SThread.all; simp [hx]))
        omega
      omega
  have := key s.threads fun th hth x hx => h x (everywhere_mem.2 (.inr (.inl ⟨th, hth, hx⟩)))
  omega

/-- The effective bytes of the threads are at least none and at most all. -/
theorem eff_bounds (mb : Int) (del : Bool) (n : Nat) (evs : List SEvent) (s : SSys) (hl : SListFirst evs)
    (hh : Along HonestStep (SSys.init mb del n) evs) (h : sRun (SSys.init mb del n) evs = .ok s)
    (hc : ∀ b ∈ s.created, 0 ≤ b.size) :
    0 ≤ sumOf (fun th => th.hist.stats.effDataBytes) s.threads ∧
    sumOf (fun th => th.hist.stats.effDataBytes) s.threads + sumOf (fun x => x.size) s.unsent = s.q.totalFileSize ∧
    0 ≤ sumOf (fun x => x.size) s.unsent := by
  have h1 := sent_plus_unsent mb del n evs s hl hh h
  have h2 := (totals_run evs _ _ ⟨rfl, rfl⟩ h).1
  have h3 := sizes_nonneg mb del n evs s hl hh h hc
  have h4 := unsent_le s h3
  have h5 := (sizePot.final mb del n evs s hl (honest_along sizePot rfl evs _ hh) h).total
  have h6 := (credPot.final mb del n evs s hl (honest_along credPot rfl evs _ hh) h).total
  have h7 : 0 ≤ sumOf sizePot.credW s.credits := by
    refine sumOf_nonneg _ _ fun c hcm => ?_
    have hz : sumOf credPot.credW s.credits = 0 := by
      have : sumOf credPot.thW s.threads = 0 := by
        rw [sumOf_congr credPot.thW (fun _ => 0) s.threads (fun th _ => by
          unfold Pot.thW; simp only [credPot, sumOf_zero]; rfl)]
        exact sumOf_zero _
      unfold Pot.total at h6
      rw [this] at h6
      simp only [credPot, sumOf_zero, Int.zero_mul] at h6 ⊢
      omega
    have := sumOf_ge_mem credPot.credW (fun c => by simp only [credPot]; split <;> decide) s.credits c hcm
    simp only [credPot] at hz this
    simp only [sizePot]
    by_contra hn
    rw [if_pos (by omega)] at this
    omega
  have h8 : sumOf sizePot.thW s.threads = sumOf (fun th => sumOf (fun x : Source => x.size) th.opening.toList +
      sumOf (fun x => x.size) th.cur.toList + sumOf (fun x => x.size) th.hist.history) s.threads := by
    refine sumOf_congr _ _ _ fun th _ => ?_
    unfold Pot.thW
    simp only [sizePot, Int.add_zero]
  have h9 := everywhere_sum (fun x => x.size) s
  unfold Pot.total at h5
  rw [h8] at h5
  simp only [sizePot, Int.zero_mul, Int.add_zero] at h5 h7
  have h10 : 0 ≤ sumOf (fun x => x.size) s.unsent := by
    refine sumOf_nonneg _ _ fun x hx => h3 x ?_
    unfold SSys.unsent at hx
    rw [everywhere_mem]
    simp only [List.mem_append, List.mem_flatMap] at hx
    rcases hx with (hx | ⟨th, hth, hx⟩) | hx
    · exact Or.inl hx
    · refine Or.inr (Or.inl ⟨th, hth, ?_⟩)
      unfold SThread.unsent at hx
      unfold SThread.all
      simp only [List.mem_append, List.mem_filter] at hx ⊢
      tauto
    · exact Or.inr (Or.inr hx)
  refine ⟨by omega, by omega, h10⟩

/-! ### The percentage -/

theorem readThreads_now (s : SSys) : ∀ (k t : Nat), t + k = s.threads.length →
    readThreads s t (List.replicate k []) = .ok (sumOf (fun th => th.hist.stats.effDataBytes) (s.threads.drop t)) := by
  intro k
  induction k with
  | zero => intro t ht; rw [List.drop_eq_nil_of_le (by omega)]; rfl
  | succ k ih =>
    intro t ht
    rw [List.replicate_succ]
    unfold readThreads
    simp only [sRun]
    rw [ih (t + 1) (by omega)]
    have hlt : t < s.threads.length := by omega
    rw [List.drop_eq_getElem_cons hlt, sumOf_cons, List.getElem?_eq_getElem hlt]
    rfl

theorem percent_ok {eff total : Int} (h0 : 0 ≤ eff) (h1 : eff ≤ total) (hb : total * 100 ≤ 9223372036854775807) :
    ∃ p, progressPercent eff total = .ok p ∧ 0 ≤ p ∧ p ≤ 100 ∧ (p = 100 ↔ 0 < total ∧ eff = total) ∧
      p * total ≤ eff * 100 ∧ (0 < total → eff * 100 < (p + 1) * total) := by
  unfold progressPercent
  by_cases ht : total > 0
  · rw [if_pos ht, if_pos (by simp only [fitsInt64, decide_eq_true_eq]; omega)]
    have hd : (eff * 100).tdiv total = eff * 100 / total := Int.tdiv_eq_ediv_of_nonneg (by omega)
    have hp0 : 0 ≤ eff * 100 / total := Int.ediv_nonneg (by omega) (by omega)
    have hp1 : eff * 100 / total ≤ 100 := by
      have : eff * 100 / total ≤ total * 100 / total := Int.ediv_le_ediv (by omega) (by omega)
      rwa [Int.mul_ediv_cancel_left _ (by omega)] at this
    have hm1 : eff * 100 / total * total ≤ eff * 100 := Int.ediv_mul_le _ (by omega)
    have hm2 : eff * 100 < (eff * 100 / total + 1) * total := Int.lt_ediv_add_one_mul_self _ (by omega)
    have hw : wrapInt (eff * 100 / total) = eff * 100 / total := by
      unfold wrapInt; omega
    rw [hd]
    refine ⟨_, rfl, ?_, ?_, ?_, ?_, ?_⟩ <;> rw [hw]
    · exact hp0
    · exact hp1
    · constructor
      · intro he
        rw [he] at hm1
        exact ⟨ht, by omega⟩
      · rintro ⟨_, rfl⟩
        exact Int.mul_ediv_cancel_left _ (by omega)
    · exact hm1
    · intro _; exact hm2
  · rw [if_neg ht]
    refine ⟨0, rfl, by omega, by omega, ?_, by omega, ?_⟩
    · constructor
      · intro h; cases h
      · rintro ⟨h, _⟩; omega
    · intro h; omega

/-- C95: if nothing happens while the numbers are read, the percentage is that of the bytes discovered so far that are
sent, and 100 is shown exactly if there is something to send and none of it is left. -/
theorem C95_percent_partial (mb : Int) (del : Bool) (n : Nat) (evs : List SEvent) (s : SSys) (hl : SListFirst evs)
    (hh : Along HonestStep (SSys.init mb del n) evs) (h : sRun (SSys.init mb del n) evs = .ok s)
    (hc : ∀ b ∈ s.created, 0 ≤ b.size) (hb : s.q.totalFileSize * 100 ≤ 9223372036854775807) :
    ∃ p, readPercent s (List.replicate s.threads.length []) = .ok p ∧ 0 ≤ p ∧ p ≤ 100 ∧
      (p = 100 ↔ 0 < s.q.totalFileSize ∧ ∀ x ∈ s.unsent, x.size = 0) := by
  obtain ⟨h1, h2, h3⟩ := eff_bounds mb del n evs s hl hh h hc
  obtain ⟨p, g1, g2, g3, g4, _⟩ := percent_ok h1 (by omega) hb
  refine ⟨p, ?_, g2, g3, ?_⟩
  · unfold readPercent
    rw [readThreads_now s _ 0 (by omega), List.drop_zero]
    dsimp only
    rw [g1]
  · rw [g4]
    constructor
    · rintro ⟨a, b⟩; exact ⟨a, all_sent mb del n evs s hl hh h hc b⟩
    · rintro ⟨a, b⟩
      refine ⟨a, ?_⟩
      have : sumOf (fun x => x.size) s.unsent = 0 := by
        rw [sumOf_congr (fun x : Source => x.size) (fun _ => 0) s.unsent b]
        exact sumOf_zero _
      omega

deriving instance DecidableEq for Res

/-- Two threads; the run of `C20` goes through all of its states. -/
example : ∃ s, sRun (SSys.init 0 false 2) demoRun = .ok s ∧ 0 < s.q.totalFileSize ∧ 2 = s.threads.length ∧
    readPercent s [[], []] = .ok 100 := by
  refine ⟨_, rfl, ?_, ?_, ?_⟩ <;> decide +kernel

/-- A second file of `n` bytes is found and sent. -/
def raceRun (n : Int) : List SEvent :=
  [.discover ⟨[98], n⟩, .finishDiscovery,
   .pop 0 { name := [98], seqId := 2, fileSize := n, status := 0, offset := 0, size := n }, .openOk 0, .sent 0 (.ok 0)]

/-- C95 fails without the proviso: the total is read first.  If between that and the reading of the threads' counters a
second file is found and sent, more than 100 percent is shown: 900 for files of 1 and 9 bytes.  With half a megabyte the
width of the bar is computed by an overflow of `int`. -/
theorem C95_violated_race : ∃ s, sRun (SSys.init 0 false 1) [.discover ⟨[97], 1⟩] = .ok s ∧
    readPercent s [raceRun 9] = .ok 900 ∧
    readPercent s [raceRun 500000] = .ok 50000000 ∧
    ∀ avg cur, displayLine 50000000 s.q.numEntries.toNat s.q.initFinished avg cur = .error .ub := by
  refine ⟨_, rfl, by decide +kernel, by decide +kernel, ?_⟩
  intro avg cur
  unfold displayLine
  rw [if_neg (by decide +kernel)]

/-- C95: a receiver shows nothing until the sender has said how much there is. -/
theorem C95_receiver_unknown (threads : List TStats) (h : ∀ t ∈ threads, t.totalSenderBytes = -1) :
    receiverPercent threads = .ok 0 := by
  have key : ∀ (l : List TStats) (a : TStats), a.totalSenderBytes = -1 → (∀ t ∈ l, t.totalSenderBytes = -1) →
      (l.foldl TStats.add a).totalSenderBytes = -1 := by
    intro l
    induction l with
    | nil => intro a h _; exact h
    | cons b l ih =>
      intro a ha hl
      refine ih _ ?_ fun t ht => hl t (by simp [ht])
      simp only [TStats.add]
      rw [if_pos ha]
      exact hl b (by simp)
  unfold receiverPercent progressPercent
  rw [if_neg (by
    have := key threads {} rfl h
    unfold sumStats
    omega)]

example : receiverPercent [{ effDataBytes := 7 }, { effDataBytes := 9 }] = .ok 0 ∧
    receiverPercent [{ effDataBytes := 7 }, { effDataBytes := 9, totalSenderBytes := 32 }] = .ok 50 := by decide +kernel

/-! ### The line -/

theorem decText_length (n : Nat) : (decText n).length = Nat.log 10 n + 1 := by
  induction n using Nat.strong_induction_on with
  | _ n ih =>
    unfold decText
    split
    · next h => rw [Nat.log_of_lt h]; rfl
    · next h =>
      rw [List.length_append, ih (n / 10) (by omega), Nat.log_of_one_lt_of_le (b := 10) (n := n) (by omega) (by omega)]
      rfl

theorem decText_digits (n : Nat) : ∀ c ∈ decText n, 48 ≤ c.toNat ∧ c.toNat ≤ 57 := by
  have hd : ∀ d, d < 10 → 48 ≤ (UInt8.ofNat (48 + d)).toNat ∧ (UInt8.ofNat (48 + d)).toNat ≤ 57 := by
    intro d h
    rw [UInt8.toNat_ofNat']
    omega
  induction n using Nat.strong_induction_on with
  | _ n ih =>
    unfold decText
    split
    · next h =>
      intro c hc
      simp only [List.mem_singleton] at hc
      subst hc; exact hd n h
    · next h =>
      intro c hc
      rw [List.mem_append, List.mem_singleton] at hc
      rcases hc with hc | rfl
      · exact ih (n / 10) (by omega) c hc
      · exact hd _ (Nat.mod_lt _ (by omega))

/-- Between the width of a finished discovery and 28. -/
theorem barWidth_bounds (files : Nat) (finished : Bool) (hf : files < 9223372036854775808) :
    28 ≤ barWidth files finished ∧ barWidth files finished ≤ 50 ∧
    (barPrefix files finished).length = (50 - barWidth files finished).toNat := by
  unfold barWidth barPrefix
  cases finished
  · simp only [Bool.false_eq_true, ↓reduceIte, List.length_append, decText_length, List.length_cons, List.length_nil]
    have h1 : Nat.log 10 files < 19 := by
      refine Nat.log_lt_of_lt_pow' (by omega) (by omega)
    split
    · omega
    · next h =>
      have : files = 0 := by omega
      subst this
      simp
  · simp

/-- What is inside the brackets and before them, and how it is divided. -/
theorem bar_shape (p : Int) (files : Nat) (finished : Bool) (avg cur : Bytes) (h0 : 0 ≤ p) (h1 : p ≤ 100)
    (hf : files < 9223372036854775808) :
    ∃ eqs gt sp : Nat, displayLine p files finished avg cur =
        .ok ((barPrefix files finished ++ 91 :: (List.replicate eqs 61 ++ List.replicate gt 62 ++ List.replicate sp 32)) ++
          93 :: barTail p avg cur) ∧
      (barPrefix files finished).length + 1 + eqs + gt + sp = 50 ∧
      (eqs : Int) = max 0 (p * barWidth files finished / 100 - 1) ∧ (gt = 0 ∧ sp = 0 ↔ p = 100) := by
  obtain ⟨w1, w2, w3⟩ := barWidth_bounds files finished hf
  generalize hw : barWidth files finished = w at *
  have hpw0 : 0 ≤ p * w := Int.mul_nonneg h0 (by omega)
  have hpw1 : p * w ≤ 100 * w := Int.mul_le_mul_of_nonneg_right h1 (by omega)
  have hd : (p * w).tdiv 100 = p * w / 100 := Int.tdiv_eq_ediv_of_nonneg hpw0
  have hfit : fitsInt (p * w) = true := by simp only [fitsInt, decide_eq_true_eq]; omega
  have hfull : p * w / 100 = w ↔ p = 100 := by
    constructor
    · intro h
      by_contra hne
      have : p * w ≤ 99 * w := Int.mul_le_mul_of_nonneg_right (by omega) (by omega)
      omega
    · rintro rfl
      omega
  have hline : displayLine p files finished avg cur =
      .ok (barPrefix files finished ++ barText w (p * w / 100) ++ barTail p avg cur) := by
    unfold displayLine
    simp only [hw, hfit, hd, ↓reduceIte]
  rw [hline]
  generalize hs : p * w / 100 = sc at *
  have hsc : 0 ≤ sc ∧ sc ≤ w := by omega
  unfold barText
  by_cases hc : sc ≠ 0 ∧ sc ≠ w
  · rw [if_pos hc]
    refine ⟨(sc - 1).toNat, 1, (w - sc - 1).toNat, by simp, ?_, ?_, ?_⟩
    · rw [w3]; omega
    · omega
    · constructor
      · rintro ⟨h, _⟩; cases h
      · intro h; exact absurd (hfull.2 h) hc.2
  · rw [if_neg hc]
    refine ⟨(sc - 1).toNat, 0, (w - sc - 1).toNat, by simp, ?_, ?_, ?_⟩
    · rw [w3]; omega
    · omega
    · rw [← hfull]; omega

theorem barPrefix_plain (files : Nat) (finished : Bool) : 93 ∉ barPrefix files finished ∧ 62 ∉ barPrefix files finished ∧
    32 ∉ barPrefix files finished ∧ 61 ∉ barPrefix files finished := by
  unfold barPrefix
  have h := decText_digits files
  have : ∀ c : UInt8, (57 < c.toNat ∨ c.toNat < 46) → c ∉ decText files ++ [46, 46, 46] := by
    intro c hc hm
    simp only [List.mem_append, List.mem_cons, List.not_mem_nil, or_false] at hm
    rcases hm with hm | rfl | rfl | rfl
    · have := h c hm; omega
    all_goals revert hc; decide
  cases finished
  · simp only [Bool.false_eq_true, ↓reduceIte]
    exact ⟨this _ (by decide), this _ (by decide), this _ (by decide), this _ (by decide)⟩
  · simp

/-- Number of `=` signs in a bar. -/
def barEquals (line : Bytes) : Nat := (line.take 50).count 61

/-- C95: the line of the display.  The closing bracket is always in the same column; the bar is complete exactly at 100
percent; the number is that of the percentage; while files are being discovered their number is in front. -/
theorem C95_bar (p : Int) (files : Nat) (finished : Bool) (avg cur : Bytes) (h0 : 0 ≤ p) (h1 : p ≤ 100)
    (hf : files < 9223372036854775808) :
    ∃ line, displayLine p files finished avg cur = .ok line ∧ line[50]? = some 93 ∧ 93 ∉ line.take 50 ∧
      (62 ∉ line.take 50 ∧ 32 ∉ line.take 50 ↔ p = 100) ∧
      (finished = false → decText files ++ [46, 46, 46, 91] <+: line) ∧ (finished = true → [91] <+: line) ∧
      32 :: padTwo (intText p) ++ [37, 32] ++ avg <+: line.drop 51 := by
  obtain ⟨eqs, gt, sp, g1, g2, g3, g4⟩ := bar_shape p files finished avg cur h0 h1 hf
  obtain ⟨n1, n2, n3, n4⟩ := barPrefix_plain files finished
  refine ⟨_, g1, ?_⟩
  have hlen : (barPrefix files finished ++ 91 :: (List.replicate eqs 61 ++ List.replicate gt 62 ++ List.replicate sp 32) :
      Bytes).length = 50 := by
    simp only [List.length_append, List.length_cons, List.length_replicate]; omega
  have htake : ∀ r : Bytes, ((barPrefix files finished ++ 91 :: (List.replicate eqs 61 ++ List.replicate gt 62 ++
      List.replicate sp 32) : Bytes) ++ r).take 50 = barPrefix files finished ++ 91 :: (List.replicate eqs 61 ++
      List.replicate gt 62 ++ List.replicate sp 32) := by
    intro r
    rw [← hlen, List.take_left']
    rfl
  rw [htake]
  refine ⟨?_, ?_, ?_, ?_, ?_, ?_⟩
  · rw [List.getElem?_append_right (by omega), hlen]; rfl
  · simp only [List.mem_append, List.mem_cons, List.mem_replicate, not_or]
    refine ⟨n1, by decide, ⟨?_, ?_⟩, ?_⟩ <;> (rintro ⟨_, h⟩; exact absurd h (by decide))
  · rw [← g4]
    simp only [List.mem_append, List.mem_cons, List.mem_replicate, not_or]
    constructor
    · rintro ⟨⟨_, _, ⟨_, a⟩, _⟩, _, _, _, b⟩
      simp at a b
      exact ⟨a, b⟩
    · rintro ⟨rfl, rfl⟩
      refine ⟨⟨n2, by decide, ⟨?_, ?_⟩, ?_⟩, n3, by decide, ⟨?_, ?_⟩, ?_⟩ <;> (rintro ⟨a, h⟩; first | exact absurd h (by decide) | exact a rfl)
  · rintro rfl
    simp [barPrefix]
  · rintro rfl
    simp [barPrefix]
  · rw [List.drop_append, hlen]
    rw [List.drop_eq_nil_of_le (by omega)]
    simp [barTail]

/-- C95: more percent, no shorter bar. -/
theorem C95_bar_grows (p p' : Int) (files : Nat) (finished : Bool) (avg cur avg' cur' line line' : Bytes) (h0 : 0 ≤ p)
    (h : p ≤ p') (h1 : p' ≤ 100) (hf : files < 9223372036854775808)
    (hl : displayLine p files finished avg cur = .ok line) (hl' : displayLine p' files finished avg' cur' = .ok line') :
    barEquals line ≤ barEquals line' := by
  have key : ∀ (p : Int) (avg cur line : Bytes), 0 ≤ p → p ≤ 100 → displayLine p files finished avg cur = .ok line →
      (barEquals line : Int) = max 0 (p * barWidth files finished / 100 - 1) := by
    intro p avg cur line h0 h1 hl
    obtain ⟨eqs, gt, sp, g1, g2, g3, g4⟩ := bar_shape p files finished avg cur h0 h1 hf
    obtain ⟨n1, n2, n3, n4⟩ := barPrefix_plain files finished
    rw [hl] at g1
    cases g1
    have hlen : (barPrefix files finished ++ 91 :: (List.replicate eqs 61 ++ List.replicate gt 62 ++ List.replicate sp 32) :
        Bytes).length = 50 := by
      simp only [List.length_append, List.length_cons, List.length_replicate]; omega
    unfold barEquals
    rw [← g3]
    rw [← hlen, List.take_left' rfl, List.count_append, List.count_cons, List.count_append, List.count_append,
      List.count_replicate, List.count_replicate, List.count_replicate, List.count_eq_zero.2 n4]
    simp
  have a := key p avg cur line h0 (by omega) hl
  have b := key p' avg' cur' line' (by omega) h1 hl'
  obtain ⟨w1, w2, w3⟩ := barWidth_bounds files finished hf
  have : p * barWidth files finished ≤ p' * barWidth files finished := Int.mul_le_mul_of_nonneg_right h (by omega)
  omega

/-- "1234...[====>  ...] 13% 1.5 2.5 Mbytes/s  " -/
example : ∃ line, displayLine 13 1234 false [49, 46, 53] [50, 46, 53] = .ok line ∧ barEquals line = 4 ∧
    line.take 14 = [49, 50, 51, 52, 46, 46, 46, 91, 61, 61, 61, 61, 62, 32] := ⟨_, rfl, by decide +kernel, by decide +kernel⟩

/-! ### Redrawing -/

theorem intText_small (p : Int) (h0 : 0 ≤ p) (h1 : p ≤ 100) : (padTwo (intText p)).length = if p < 100 then 2 else 3 := by
  have hl : (intText p).length = Nat.log 10 p.natAbs + 1 := by
    unfold intText
    rw [if_neg (by omega), decText_length]
  unfold padTwo
  rw [List.length_append, List.length_replicate, hl]
  split
  · next h =>
    have : Nat.log 10 p.natAbs < 2 := by
      by_cases hz : p.natAbs = 0
      · rw [hz]; simp
      · exact Nat.log_lt_of_lt_pow hz (by omega)
    omega
  · next h =>
    have : p.natAbs = 100 := by omega
    rw [this]
    have : Nat.log 10 100 = 2 := by
      rw [Nat.log_eq_iff (by omega)]; omega
    omega

/-- How long a line is, and with how many blanks it ends. -/
theorem line_length (p : Int) (files : Nat) (finished : Bool) (avg cur line : Bytes) (h0 : 0 ≤ p) (h1 : p ≤ 100)
    (hf : files < 9223372036854775808) (hl : displayLine p files finished avg cur = .ok line) :
    ∃ text, line = text ++ List.replicate (if p < 100 then 2 else 10) 32 ∧
      text.length = if p < 100 then 66 + avg.length + cur.length else 66 + avg.length := by
  obtain ⟨eqs, gt, sp, g1, g2, g3, g4⟩ := bar_shape p files finished avg cur h0 h1 hf
  rw [hl] at g1
  cases g1
  have hp := intText_small p h0 h1
  by_cases h : p < 100
  · simp only [h, ↓reduceIte] at hp ⊢
    refine ⟨(barPrefix files finished ++ 91 :: (List.replicate eqs 61 ++ List.replicate gt 62 ++ List.replicate sp 32)) ++
      93 :: 32 :: (padTwo (intText p) ++ [37, 32] ++ avg ++ 32 :: cur ++ mbytesText), ?_, ?_⟩
    · unfold barTail
      rw [if_pos h]
      simp [List.append_assoc]
    · simp only [List.length_append, List.length_cons, List.length_replicate, hp, mbytesText, List.length_nil]
      omega
  · simp only [h, ↓reduceIte] at hp ⊢
    refine ⟨(barPrefix files finished ++ 91 :: (List.replicate eqs 61 ++ List.replicate gt 62 ++ List.replicate sp 32)) ++
      93 :: 32 :: (padTwo (intText p) ++ [37, 32] ++ avg ++ mbytesText), ?_, ?_⟩
    · unfold barTail
      rw [if_neg h]
      simp [List.append_assoc]
    · simp only [List.length_append, List.length_cons, List.length_replicate, hp, mbytesText, List.length_nil]
      omega

/-- C95: if neither throughput gets shorter by more than one character (and the one that is dropped at 100 percent has no
more than nine), nothing of the line that was there is left beside the new one. -/
theorem C95_redraw_partial (p p' : Int) (files files' : Nat) (fin fin' : Bool) (avg cur avg' cur' old new : Bytes)
    (h0 : 0 ≤ p) (h1 : p ≤ 100) (h0' : 0 ≤ p') (h1' : p' ≤ 100) (hf : files < 9223372036854775808)
    (hf' : files' < 9223372036854775808) (ho : displayLine p files fin avg cur = .ok old)
    (hn : displayLine p' files' fin' avg' cur' = .ok new) (ha : avg.length ≤ avg'.length + 1)
    (hc : cur.length ≤ cur'.length + 1) (hd : p' = 100 → cur.length ≤ 9) :
    ∃ k, redraw old new = new ++ List.replicate k 32 := by
  obtain ⟨text, e1, e2⟩ := line_length p files fin avg cur old h0 h1 hf ho
  obtain ⟨text', e1', e2'⟩ := line_length p' files' fin' avg' cur' new h0' h1' hf' hn
  have hlen : text.length ≤ new.length := by
    rw [e1', List.length_append, List.length_replicate, e2, e2']
    split <;> split <;> omega
  unfold redraw
  rw [e1, List.drop_append, List.drop_eq_nil_of_le hlen, List.nil_append, List.drop_replicate]
  exact ⟨_, rfl⟩

example : ∃ old new, displayLine 99 7 false [49, 48, 46, 48] [57, 46, 57] = .ok old ∧
    displayLine 100 8 true [57, 46, 57] [48] = .ok new ∧ redraw old new = new ++ List.replicate 0 32 := by
  exact ⟨_, _, rfl, rfl, by decide +kernel⟩

/-- C95 fails without the proviso: after "1000.0 1000.0 Mbytes/s" a line with "9.9 9.9 Mbytes/s" leaves the end of the
former. -/
theorem C95_violated_redraw : ∃ old new, displayLine 10 5 true [49, 48, 48, 48, 46, 48] [49, 48, 48, 48, 46, 48] = .ok old ∧
    displayLine 11 5 true [57, 46, 57] [57, 46, 57] = .ok new ∧
    redraw old new = new ++ [101, 115, 47, 115, 32, 32] := ⟨_, _, rfl, rfl, by decide +kernel⟩

/-! ### Names of what failed -/

theorem insertName_mem (n x : Bytes) : ∀ l : List Bytes, x ∈ insertName n l ↔ x = n ∨ x ∈ l := by
  intro l
  induction l with
  | nil => simp [insertName]
  | cons m l ih =>
    unfold insertName
    split
    · simp
    · split
      · next h => subst h; simp
      · simp only [List.mem_cons, ih]; tauto

theorem insertName_sorted (n : Bytes) : ∀ l : List Bytes, l.Pairwise (· < ·) → (insertName n l).Pairwise (· < ·) := by
  intro l
  induction l with
  | nil => intro _; simp [insertName]
  | cons m l ih =>
    intro h
    obtain ⟨h1, h2⟩ := List.pairwise_cons.1 h
    unfold insertName
    split
    · next hlt =>
      refine List.pairwise_cons.2 ⟨?_, h⟩
      intro x hx
      rcases List.mem_cons.1 hx with rfl | hx
      · exact hlt
      · exact List.lt_trans hlt (h1 x hx)
    · next hnlt =>
      split
      · exact h
      · next hne =>
        refine List.pairwise_cons.2 ⟨?_, ih h2⟩
        intro x hx
        rcases (insertName_mem n x l).1 hx with rfl | hx
        · rcases Std.lt_trichotomy x m with h | h | h
          · exact absurd h hnlt
          · exact absurd h hne
          · exact h
        · exact h1 x hx

theorem nameSet_spec (l : List Bytes) : (nameSet l).Pairwise (· < ·) ∧ ∀ x, x ∈ nameSet l ↔ x ∈ l := by
  have key : ∀ (l acc : List Bytes), acc.Pairwise (· < ·) →
      (l.foldl (fun s n => insertName n s) acc).Pairwise (· < ·) ∧
      ∀ x, x ∈ l.foldl (fun s n => insertName n s) acc ↔ x ∈ acc ∨ x ∈ l := by
    intro l
    induction l with
    | nil => intro acc h; exact ⟨h, by simp⟩
    | cons a l ih =>
      intro acc h
      obtain ⟨h1, h2⟩ := ih (insertName a acc) (insertName_sorted a acc h)
      refine ⟨h1, fun x => ?_⟩
      rw [List.foldl_cons, h2, insertName_mem, List.mem_cons]
      tauto
  obtain ⟨h1, h2⟩ := key l [] List.Pairwise.nil
  exact ⟨h1, fun x => by rw [nameSet, h2]; simp⟩

/-- C95: the names that the printed report has are of files that failed, in order and each once; if it does not say that
there are more, or that all failed, they are all of them. -/
theorem C95_failed_names (numFiles : Int) (failed dirs : List Bytes) :
    let t := failText numFiles failed dirs
    t.files.Pairwise (· < ·) ∧ (∀ n ∈ t.files, n ∈ failed) ∧ t.files.length ≤ 10 ∧
    (t.all = true ↔ failed ≠ [] ∧ numFiles = 0) ∧
    (t.all = false → t.moreFiles = none → ∀ n ∈ failed, n ∈ t.files) ∧
    (∀ k, t.moreFiles = some k → t.files.length = 10 ∧ ∃ rest : List Bytes, rest.Nodup ∧ (rest.length : Int) = k ∧ 0 < k ∧
      ∀ n, n ∈ rest ↔ n ∈ failed ∧ n ∉ t.files) ∧
    (∀ n ∈ failed, n ∉ t.files → ∀ m ∈ t.files, m < n) ∧
    t.dirs = dirs.take 10 ∧ (∀ k, t.moreDirs = some k ↔ 10 < dirs.length ∧ k = dirs.length - 10) := by
  obtain ⟨s1, s2⟩ := nameSet_spec failed
  have hdirs : (failText numFiles failed dirs).dirs = dirs.take 10 ∧
      (∀ k, (failText numFiles failed dirs).moreDirs = some k ↔ 10 < dirs.length ∧ k = dirs.length - 10) := by
    have hm : (failText numFiles failed dirs).moreDirs = (firstEntries dirs).2 ∧
        (failText numFiles failed dirs).dirs = (firstEntries dirs).1 := by
      unfold failText
      dsimp only
      split
      · exact ⟨rfl, rfl⟩
      · split <;> exact ⟨rfl, rfl⟩
    refine ⟨hm.2, fun k => ?_⟩
    rw [hm.1]
    unfold firstEntries maxEntries
    dsimp only
    split
    · simp only [Option.some.injEq]; omega
    · constructor
      · intro h; cases h
      · omega
  intro t
  by_cases hf : failed = []
  · have : t.files = [] ∧ t.all = false ∧ t.moreFiles = none := by
      show (failText numFiles failed dirs).files = _ ∧ (failText numFiles failed dirs).all = _ ∧
        (failText numFiles failed dirs).moreFiles = _
      unfold failText; rw [if_pos hf]; exact ⟨rfl, rfl, rfl⟩
    obtain ⟨a, b, c⟩ := this
    rw [a, b, c, hf]
    refine ⟨by simp, by simp, by simp, by simp, by simp, by simp, by simp, hdirs.1, hdirs.2⟩
  · by_cases hz : numFiles = 0
    · have : t.files = [] ∧ t.all = true ∧ t.moreFiles = none := by
        show (failText numFiles failed dirs).files = _ ∧ (failText numFiles failed dirs).all = _ ∧
          (failText numFiles failed dirs).moreFiles = _
        unfold failText; rw [if_neg hf, if_pos hz]; exact ⟨rfl, rfl, rfl⟩
      obtain ⟨a, b, c⟩ := this
      rw [a, b, c]
      refine ⟨by simp, by simp, by simp, by simp [hf, hz], by simp, by simp, by simp, hdirs.1, hdirs.2⟩
    · have : t.files = (nameSet failed).take 10 ∧ t.all = false ∧ t.moreFiles = (firstEntries (nameSet failed)).2 := by
        show (failText numFiles failed dirs).files = _ ∧ (failText numFiles failed dirs).all = _ ∧
          (failText numFiles failed dirs).moreFiles = _
        unfold failText; rw [if_neg hf, if_neg hz]; exact ⟨rfl, rfl, rfl⟩
      obtain ⟨a, b, c⟩ := this
      have hsplit : ∀ n, n ∈ failed → n ∉ t.files → n ∈ (nameSet failed).drop 10 := by
        intro n hn hnt
        rw [← s2, ← List.take_append_drop 10 (nameSet failed), List.mem_append, ← a] at hn
        tauto
      have hpw := s1
      rw [← List.take_append_drop 10 (nameSet failed), List.pairwise_append] at hpw
      obtain ⟨p1, p2, p3⟩ := hpw
      refine ⟨by rw [a]; exact p1, ?_, ?_, ?_, ?_, ?_, ?_, hdirs.1, hdirs.2⟩
      · intro n hn
        rw [a] at hn
        exact (s2 n).1 (List.mem_of_mem_take hn)
      · rw [a, List.length_take]; omega
      · rw [b]; simp [hz]
      · intro _ hm n hn
        by_contra hnt
        have := List.length_pos_of_mem (hsplit n hn hnt)
        rw [List.length_drop] at this
        rw [c] at hm
        unfold firstEntries maxEntries at hm
        dsimp only at hm
        rw [if_pos (by omega)] at hm
        cases hm
      · intro k hk
        rw [c] at hk
        unfold firstEntries maxEntries at hk
        dsimp only at hk
        split at hk
        · next hlt =>
          simp only [Option.some.injEq] at hk
          refine ⟨by rw [a, List.length_take]; omega, (nameSet failed).drop 10, ?_, ?_, by omega, ?_⟩
          · exact p2.imp fun h => by rintro rfl; exact List.lt_irrefl _ h
          · rw [List.length_drop]; omega
          · intro n
            constructor
            · intro hn
              refine ⟨(s2 n).1 (List.mem_of_mem_drop hn), ?_⟩
              rw [a]
              intro hn'
              exact List.lt_irrefl _ (p3 n hn' n hn)
            · rintro ⟨h1, h2⟩; exact hsplit n h1 h2
        · cases hk
      · intro n hn hnt m hm
        rw [a] at hm
        exact p3 m hm n (hsplit n hn hnt)

example : failText 5 [[98], [97], [98]] [] = { files := [[97], [98]] } := by decide +kernel

/-! ### The number of files -/

theorem eraseDups_nodup (l : List Bytes) : l.eraseDups.Nodup := by
  have key : ∀ (k : Nat) (l : List Bytes), l.length ≤ k → l.eraseDups.Nodup := by
    intro k
    induction k with
    | zero => intro l h; rw [List.length_eq_zero_iff.1 (Nat.le_zero.1 h)]; simp
    | succ k ih =>
      intro l h
      cases l with
      | nil => simp
      | cons a l =>
        rw [List.eraseDups_cons, List.nodup_cons]
        have hlen : (l.filter fun b => !b == a).length ≤ k := by
          have := List.length_filter_le (fun b => !b == a) l
          simp only [List.length_cons] at h
          omega
        refine ⟨?_, ih _ hlen⟩
        rw [List.mem_eraseDups, List.mem_filter]
        simp
  exact key _ l (Nat.le_refl _)

theorem tileLoop_ne_nil (bs : Int) (fuel : Nat) (off rem : Int) (l : List Block) (h : tileLoop bs fuel off rem = some l) :
    l ≠ [] := by
  cases fuel with
  | zero => cases h
  | succ fuel =>
    unfold tileLoop at h
    dsimp only at h
    split at h
    · simp only [Option.map_eq_some_iff] at h
      obtain ⟨_, _, rfl⟩ := h
      simp
    · cases h; simp

theorem planFile_remaining {prev : Option FileChunksInfo} {fs next : Int} {p : FilePlan}
    (h : planFile prev fs next = .ok (some p)) : p.remaining ≠ [] := by
  unfold planFile at h
  split at h
  · split at h
    · cases h
    · cases h; simp
  · split at h
    · split at h
      · cases h
      · cases h; simp
    · split at h
      · cases h
      · cases h
      · cases h; simp

theorem createInternal_counts {q q' : QState} {f : FileRec} {new : List Source} (h : createInternal q f = .ok (q', new)) :
    q'.shared = q.shared ∧ ((new = [] ∧ q'.numEntries = q.numEntries) ∨
      (new ≠ [] ∧ (∀ x ∈ new, x.name = f.name) ∧ q'.numEntries = q.numEntries + 1)) := by
  unfold createInternal at h
  split at h
  · cases h
  · cases h; exact ⟨rfl, Or.inl ⟨rfl, rfl⟩⟩
  · next p hp =>
    split at h
    · cases h
    · next bl hbl =>
      cases h
      refine ⟨rfl, Or.inr ⟨?_, ?_, rfl⟩⟩
      · have hne := planFile_remaining hp
        cases hr : p.remaining with
        | nil => exact absurd hr hne
        | cons c cs =>
          rw [hr] at hbl
          unfold tileAll at hbl
          split at hbl
          · next a b ha hb =>
            cases hbl
            have := tileLoop_ne_nil _ _ _ _ _ ha
            simp [this]
          · cases hbl
      · intro x hx
        obtain ⟨b, _, rfl⟩ := List.mem_map.1 hx
        rfl

/-- Names that make up a count. -/
def CountedBy (names : List Bytes) (new : List Source) (n : Int) : Prop :=
  ∃ ns : List Bytes, List.Sublist ns names ∧ n = ns.length ∧ ∀ b, b ∈ ns ↔ b ∈ new.map Source.name

theorem CountedBy.append {n1 n2 : List Bytes} {s1 s2 : List Source} {a b : Int} (h1 : CountedBy n1 s1 a)
    (h2 : CountedBy n2 s2 b) : CountedBy (n1 ++ n2) (s1 ++ s2) (a + b) := by
  obtain ⟨l1, e1, e2, e3⟩ := h1
  obtain ⟨l2, g1, g2, g3⟩ := h2
  refine ⟨l1 ++ l2, e1.append g1, by rw [List.length_append]; omega, fun b => ?_⟩
  rw [List.mem_append, List.map_append, List.mem_append, e3, g3]

theorem createInternal_counted {q q' : QState} {f : FileRec} {new : List Source} (h : createInternal q f = .ok (q', new)) :
    q'.shared = q.shared ∧ CountedBy [f.name] new (q'.numEntries - q.numEntries) := by
  obtain ⟨h1, h2 | h2⟩ := createInternal_counts h
  · obtain ⟨rfl, h3⟩ := h2
    exact ⟨h1, [], List.nil_sublist _, by rw [h3]; simp, by simp⟩
  · obtain ⟨h3, h4, h5⟩ := h2
    refine ⟨h1, [f.name], List.Sublist.refl _, by rw [h5]; simp; omega, fun b => ?_⟩
    simp only [List.mem_singleton, List.mem_map]
    constructor
    · rintro rfl
      obtain ⟨x, hx⟩ := List.exists_mem_of_ne_nil _ h3
      exact ⟨x, hx, h4 x hx⟩
    · rintro ⟨x, hx, rfl⟩; exact h4 x hx

theorem recreateLoop_counted : ∀ (fs : List FileRec) (q q' : QState) (new : List Source),
    recreateLoop q fs = .ok (q', new) →
    q'.shared = q.shared ∧ CountedBy (fs.map FileRec.name) new (q'.numEntries - q.numEntries) := by
  intro fs
  induction fs with
  | nil =>
    intro q q' new h
    cases h
    exact ⟨rfl, [], List.nil_sublist _, by simp, by simp⟩
  | cons f fs ih =>
    intro q q' new h
    unfold recreateLoop at h
    split at h
    · cases h
    · next q1 s1 h1 =>
      split at h
      · cases h
      · next q2 s2 h2 =>
        cases h
        obtain ⟨a1, a2⟩ := createInternal_counted h1
        obtain ⟨b1, b2⟩ := ih _ _ _ h2
        refine ⟨b1.trans a1, ?_⟩
        have := a2.append b2
        rwa [show q1.numEntries - q.numEntries + (q'.numEntries - q1.numEntries) = q'.numEntries - q.numEntries by omega] at this

theorem enqueueDeletions_counted (q : QState) : ∃ l, (enqueueDeletions q).1.shared.map FileRec.name = q.shared.map FileRec.name ++ l ∧
    CountedBy l (enqueueDeletions q).2 ((enqueueDeletions q).1.numEntries - q.numEntries) := by
  unfold enqueueDeletions
  split
  · exact ⟨[], by simp, [], List.nil_sublist _, by simp, by simp⟩
  · split
    · exact ⟨[], by simp, [], List.nil_sublist _, by simp, by simp⟩
    · refine ⟨_, by rw [List.map_append], _, List.Sublist.refl _, ?_, ?_⟩
      · simp only [List.length_map]; omega
      · intro b
        simp only [List.map_map, List.mem_map, Function.comp, deletionSource]

/-- The number of entries is that of the files that have blocks, if no name is there twice. -/
def EntriesOK (s : SSys) : Prop := CountedBy (s.q.shared.map FileRec.name) s.created s.q.numEntries

theorem entries_step {s s' : SSys} {e : SEvent} (hs : EntriesOK s) (h : sStep s e = .ok s') : EntriesOK s' := by
  rcases sStep_static h with ⟨f, rfl⟩ | rfl | ⟨infos, rfl⟩ | ⟨h1, _, _, h4, _, _, h7, _⟩
  · simp only [sStep] at h
    split at h
    · cases h
    · split at h
      · cases h
      · next q new hq =>
        cases h
        unfold discoverFile at hq
        obtain ⟨a1, a2⟩ := createInternal_counted hq
        unfold EntriesOK at hs ⊢
        dsimp only at a1 a2 ⊢
        rw [a1, List.map_append]
        have := hs.append a2
        rwa [show s.q.numEntries + (q.numEntries - s.q.numEntries) = q.numEntries by omega] at this
  · simp only [sStep] at h
    split at h
    · cases h
    · cases h
      unfold EntriesOK finishDiscovery at *
      obtain ⟨l, a1, a2⟩ := enqueueDeletions_counted { s.q with initFinished := true }
      dsimp only at a1 a2 ⊢
      rw [a1]
      have := hs.append a2
      rwa [show ∀ x, s.q.numEntries + (x - s.q.numEntries) = x by intro x; omega] at this
  · simp only [sStep] at h
    split at h
    · cases h
    · next q new hq =>
      cases h
      unfold setPrev at hq
      split at hq
      · cases hq
      · dsimp only at hq
        split at hq
        · cases hq
        · next q2 s2 h2 =>
          cases hq
          obtain ⟨a1, a2⟩ := recreateLoop_counted _ _ _ _ h2
          obtain ⟨l, b1, b2⟩ := enqueueDeletions_counted q2
          unfold EntriesOK
          dsimp only at a1 a2 b1 b2 ⊢
          rw [b1, a1]
          have := a2.append b2
          rwa [show ∀ x, q2.numEntries - 0 + (x - q2.numEntries) = x by intro x; omega] at this
  · unfold EntriesOK at hs ⊢
    rw [h1, h4, h7]
    exact hs

theorem entries_run (evs : List SEvent) : ∀ s s', EntriesOK s → sRun s evs = .ok s' → EntriesOK s' := by
  induction evs with
  | nil => intro s s' hs h; cases h; exact hs
  | cons e es ih =>
    intro s s' hs h
    unfold sRun at h
    split at h
    · next s1 h1 => exact ih s1 s' (entries_step hs h1) h
    · cases h
    · cases h

/-- C95: if no name is there twice and all failures are of files that were found, the number of transferred files in the
report is that of the files that had blocks to send and of which no block failed or was left. -/
theorem C95_count_partial (mb : Int) (del : Bool) (n : Nat) (evs : List SEvent) (s : SSys) (hl : SListFirst evs)
    (he : ∀ e ∈ evs, e.NonNeg) (h : sRun (SSys.init mb del n) evs = .ok s) (hd : (s.q.shared.map FileRec.name).Nodup)
    (i : SenderInput) (hi : i.failedSources.map TStats.id = s.failedNames) (hn : i.numDiscovered = s.q.numEntries) :
    ∃ good : List Bytes, good.Nodup ∧ (∀ b, b ∈ good ↔ b ∈ s.created.map Source.name ∧ b ∉ s.failedNames) ∧
      (senderReport i).numFiles = good.length := by
  obtain ⟨ns, e1, e2, e3⟩ := entries_run evs _ s ⟨[], List.nil_sublist _, rfl, by simp [SSys.init]⟩ h
  have hnd : ns.Nodup := e1.nodup hd
  have hsub : ∀ b ∈ s.failedNames, b ∈ ns := by
    intro b hb
    rw [e3]
    have hp := C20_blocks_conserved mb del n evs s hl he h
    obtain ⟨x, hx, rfl⟩ := List.mem_map.1 hb
    have hx' : x ∈ s.everywhere := by
      rw [everywhere_mem]
      rcases List.mem_append.1 hx with hx | hx
      · exact Or.inr (Or.inr hx)
      · exact Or.inl hx
    have hk := hp.mem_iff.1 (List.mem_map_of_mem hx')
    obtain ⟨y, hy, hyk⟩ := List.mem_map.1 hk
    simp only [Source.key, Prod.mk.injEq] at hyk
    exact List.mem_map.2 ⟨y, hy, hyk.1⟩
  refine ⟨ns.filter fun b => decide (b ∉ s.failedNames), hnd.filter _, ?_, ?_⟩
  · intro b
    rw [List.mem_filter, e3]
    simp
  · have hperm : (ns.filter fun b => decide (b ∈ s.failedNames)).Perm s.failedNames.eraseDups := by
      rw [List.perm_ext_iff_of_nodup (hnd.filter _) (eraseDups_nodup _)]
      intro b
      rw [List.mem_filter, List.mem_eraseDups]
      simp only [decide_eq_true_eq]
      exact ⟨fun h => h.2, fun h => ⟨hsub b h, h⟩⟩
    have hsplit : ∀ l : List Bytes, l.length = (l.filter fun b => decide (b ∈ s.failedNames)).length +
        (l.filter fun b => decide (b ∉ s.failedNames)).length := by
      intro l
      induction l with
      | nil => rfl
      | cons a l ih =>
        rw [List.filter_cons, List.filter_cons]
        by_cases ha : a ∈ s.failedNames
        · rw [if_pos (by simp [ha]), if_neg (by simp [ha])]
          simp only [List.length_cons]; omega
        · rw [if_neg (by simp [ha]), if_pos (by simp [ha])]
          simp only [List.length_cons]; omega
    have hs := hsplit ns
    show i.numDiscovered - ((i.failedSources.map TStats.id).eraseDups.length : Int) = _
    rw [hi, hn, e2, ← hperm.length_eq]
    omega

/-- Two files; one is sent and one cannot be opened. -/
def countRun : List SEvent :=
  [.discover ⟨[97], 3⟩, .discover ⟨[98], 4⟩, .finishDiscovery,
   .pop 0 { name := [98], seqId := 2, fileSize := 4, status := 0, offset := 0, size := 4 }, .openFail 0,
   .pop 0 { name := [97], seqId := 1, fileSize := 3, status := 0, offset := 0, size := 3 }, .openOk 0, .sent 0 (.ok 9),
   .markAll 0]

example : ∃ s, sRun (SSys.init 0 false 1) countRun = .ok s ∧ s.failedNames = [[98]] ∧ s.q.numEntries = 2 ∧
    (s.q.shared.map FileRec.name).Nodup ∧
    (senderReport ⟨[{ id := [98] }], [], [], 7, 2⟩).numFiles = 1 := by
  refine ⟨_, rfl, ?_, ?_, ?_, ?_⟩ <;> decide +kernel

example : SListFirst countRun := by unfold SListFirst countRun; simp [SEvent.isPop, SEvent.isSetPrev]

/-- A list with the same name twice, whose file cannot be opened. -/
def twiceRun : List SEvent :=
  [.discover ⟨[97], 3⟩, .discover ⟨[97], 3⟩, .finishDiscovery,
   .pop 0 { name := [97], seqId := 1, fileSize := 3, status := 0, offset := 0, size := 3 }, .openFail 0,
   .pop 0 { name := [97], seqId := 2, fileSize := 3, status := 0, offset := 0, size := 3 }, .openFail 0]

/-- C95 fails if a list names a file twice: nothing is sent, and one file is said to be transferred. -/
theorem C95_violated_twice : ∃ s, sRun (SSys.init 0 false 1) twiceRun = .ok s ∧ s.failedNames = [[97], [97]] ∧
    s.created.map Source.name = [[97], [97]] ∧
    ∀ i : SenderInput, i.failedSources.map TStats.id = s.failedNames → i.numDiscovered = s.q.numEntries →
      (senderReport i).numFiles = 1 := by
  obtain ⟨s, h1, h2, h3, h4⟩ : ∃ s, sRun (SSys.init 0 false 1) twiceRun = .ok s ∧ s.failedNames = [[97], [97]] ∧
      s.created.map Source.name = [[97], [97]] ∧ s.q.numEntries = 2 :=
    ⟨_, rfl, by decide +kernel, by decide +kernel, by decide +kernel⟩
  refine ⟨s, h1, h2, h3, ?_⟩
  intro i hi hn
  show i.numDiscovered - ((i.failedSources.map TStats.id).eraseDups.length : Int) = _
  rw [hi, hn, h2, h4]
  decide +kernel

/-- C95 fails if a file of a list is missing: it counts as failed, but not as found.  With the list "a", "m" of which "m"
does not exist, the number of transferred files is 0 and the report says that all failed, though "a" may have been sent;
with "m" alone the number is -1. -/
theorem C95_violated_missing :
    (∃ files failed, enqueueFiles (fun _ => none) [47] [⟨[97], 3⟩, ⟨[109], -1⟩] = (files, failed, false) ∧
      files.map XFile.rel = [[97]] ∧
      ∀ i : SenderInput, i.failedSources.map TStats.id = failed → i.numDiscovered = files.length →
        (senderReport i).numFiles = 0 ∧ (failText (senderReport i).numFiles failed i.failedDirs).all = true) ∧
    (∃ failed, enqueueFiles (fun _ => none) [47] [⟨[109], -1⟩] = ([], failed, false) ∧
      ∀ i : SenderInput, i.failedSources.map TStats.id = failed → i.numDiscovered = 0 → (senderReport i).numFiles = -1) := by
  constructor
  · refine ⟨_, _, rfl, by decide +kernel, ?_⟩
    intro i hi hn
    have : (senderReport i).numFiles = 0 := by
      show i.numDiscovered - ((i.failedSources.map TStats.id).eraseDups.length : Int) = _
      rw [hi, hn]
      decide +kernel
    refine ⟨this, ?_⟩
    rw [this]
    exact (C95_failed_names 0 [[109]] i.failedDirs).2.2.2.1.2 ⟨by simp, rfl⟩
  · refine ⟨_, rfl, ?_⟩
    intro i hi hn
    show i.numDiscovered - ((i.failedSources.map TStats.id).eraseDups.length : Int) = _
    rw [hi, hn]
    decide +kernel

end Wdt
