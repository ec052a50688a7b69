import Verif.Model.Reporting
import Verif.Props.SenderFinish
import Mathlib.Tactic.ByContra
/-
Final reports (C22, C23, C24).
-/
namespace Wdt

theorem moreInteresting_ok {a b : ErrCode} : moreInteresting a b = eOK ↔ a = eOK ∧ b = eOK := by
  unfold moreInteresting
  exact Nat.max_eq_zero_iff

/-! ### Combining statistics -/

/-- Largest code of a list. -/
def worst (l : List ErrCode) : ErrCode := l.foldr max eOK

theorem worst_perm {l1 l2 : List ErrCode} (h : l1.Perm l2) : worst l1 = worst l2 := by
  induction h with
  | nil => rfl
  | cons x _ ih => simp only [worst, List.foldr_cons] at ih ⊢; rw [ih]
  | swap x y l => exact Nat.max_left_comm y x _
  | trans _ _ ih1 ih2 => exact ih1.trans ih2

theorem worst_ok {l : List ErrCode} : worst l = eOK ↔ ∀ c ∈ l, c = eOK := by
  induction l with
  | nil => simp [worst]
  | cons x l ih =>
    simp only [worst, List.foldr_cons] at ih ⊢
    have : max x (List.foldr max eOK l) = eOK ↔ x = eOK ∧ List.foldr max eOK l = eOK := moreInteresting_ok
    rw [this, ih]; simp

/-- The counters of a sum, over any accumulator. -/
theorem foldl_counters (l : List TStats) : ∀ a : TStats,
    (l.foldl TStats.add a).headerBytes = a.headerBytes + (l.map (·.headerBytes)).sum ∧
    (l.foldl TStats.add a).dataBytes = a.dataBytes + (l.map (·.dataBytes)).sum ∧
    (l.foldl TStats.add a).effHeaderBytes = a.effHeaderBytes + (l.map (·.effHeaderBytes)).sum ∧
    (l.foldl TStats.add a).effDataBytes = a.effDataBytes + (l.map (·.effDataBytes)).sum ∧
    (l.foldl TStats.add a).numFiles = a.numFiles + (l.map (·.numFiles)).sum ∧
    (l.foldl TStats.add a).numBlocks = a.numBlocks + (l.map (·.numBlocks)).sum ∧
    (l.foldl TStats.add a).failedAttempts = a.failedAttempts + (l.map (·.failedAttempts)).sum := by
  induction l with
  | nil => intro a; simp
  | cons x l ih =>
    intro a
    have := ih (a.add x)
    simp only [List.foldl_cons, List.map_cons, List.sum_cons]
    simp only [TStats.add] at this ⊢
    omega

/-- C24: every counter of the summary is the sum of the threads' counters. -/
theorem C24_counters_sum (l : List TStats) :
    (sumStats l).headerBytes = (l.map (·.headerBytes)).sum ∧
    (sumStats l).dataBytes = (l.map (·.dataBytes)).sum ∧
    (sumStats l).effHeaderBytes = (l.map (·.effHeaderBytes)).sum ∧
    (sumStats l).effDataBytes = (l.map (·.effDataBytes)).sum ∧
    (sumStats l).numFiles = (l.map (·.numFiles)).sum ∧
    (sumStats l).numBlocks = (l.map (·.numBlocks)).sum ∧
    (sumStats l).failedAttempts = (l.map (·.failedAttempts)).sum := by
  have := foldl_counters l {}
  simpa [sumStats] using this

example : (sumStats [{ dataBytes := 5, numBlocks := 1 }, { dataBytes := 7, numBlocks := 2 }]).dataBytes = 12 := by
  decide +kernel

/-- First announced value of a list. -/
def firstAnnounced : List Int → Int
  | [] => -1
  | x :: l => if x = -1 then firstAnnounced l else x

theorem foldl_blocksSend (l : List TStats) : ∀ a : TStats,
    (l.foldl TStats.add a).numBlocksSend = firstAnnounced (a.numBlocksSend :: l.map (·.numBlocksSend)) := by
  induction l with
  | nil => intro a; simp only [List.foldl_nil, List.map_nil, firstAnnounced]; split <;> simp_all
  | cons x l ih =>
    intro a
    rw [List.foldl_cons, ih]
    simp only [TStats.add, List.map_cons, firstAnnounced]
    by_cases h : a.numBlocksSend = -1 <;> simp [h]

theorem foldl_senderBytes (l : List TStats) : ∀ a : TStats,
    (l.foldl TStats.add a).totalSenderBytes = firstAnnounced (a.totalSenderBytes :: l.map (·.totalSenderBytes)) := by
  induction l with
  | nil => intro a; simp only [List.foldl_nil, List.map_nil, firstAnnounced]; split <;> simp_all
  | cons x l ih =>
    intro a
    rw [List.foldl_cons, ih]
    simp only [TStats.add, List.map_cons, firstAnnounced]
    by_cases h : a.totalSenderBytes = -1 <;> simp [h]

theorem foldl_remote (l : List TStats) : ∀ a : TStats,
    (l.foldl TStats.add a).remoteErr = max a.remoteErr (worst (l.map (·.remoteErr))) := by
  induction l with
  | nil => intro a; simp [worst, eOK]
  | cons x l ih =>
    intro a
    rw [List.foldl_cons, ih]
    exact Nat.max_assoc _ _ _

/-- Two threads were told different totals. -/
def Disagree (l : List TStats) : Prop :=
  (∃ a ∈ l, ∃ b ∈ l, a.numBlocksSend ≠ -1 ∧ b.numBlocksSend ≠ -1 ∧ a.numBlocksSend ≠ b.numBlocksSend) ∨
  (∃ a ∈ l, ∃ b ∈ l, a.totalSenderBytes ≠ -1 ∧ b.totalSenderBytes ≠ -1 ∧ a.totalSenderBytes ≠ b.totalSenderBytes)

theorem disagree_perm {l1 l2 : List TStats} (h : l1.Perm l2) : Disagree l1 ↔ Disagree l2 := by
  simp only [Disagree, h.mem_iff]

theorem foldl_local_agree (l : List TStats) : ∀ a : TStats, ¬ Disagree (a :: l) →
    (l.foldl TStats.add a).localErr = max a.localErr (worst (l.map (·.localErr))) := by
  induction l with
  | nil => intro a _; simp [worst, eOK]
  | cons x l ih =>
    intro a hd
    simp only [Disagree, not_or, not_exists, not_and, List.mem_cons, ne_eq, Decidable.not_not] at hd
    obtain ⟨h1, h2⟩ := hd
    rw [List.foldl_cons, ih]
    · have e1 := h1 a (Or.inl rfl) x (Or.inr (Or.inl rfl))
      have e2 := h2 a (Or.inl rfl) x (Or.inr (Or.inl rfl))
      have hm : (decide (a.numBlocksSend ≠ -1 ∧ x.numBlocksSend ≠ -1 ∧ a.numBlocksSend ≠ x.numBlocksSend) ||
          decide (a.totalSenderBytes ≠ -1 ∧ x.totalSenderBytes ≠ -1 ∧ a.totalSenderBytes ≠ x.totalSenderBytes)) = false := by
        simp only [Bool.or_eq_false_iff, decide_eq_false_iff_not]
        exact ⟨fun ⟨p, q, r⟩ => r (e1 p q), fun ⟨p, q, r⟩ => r (e2 p q)⟩
      simp only [TStats.add, hm, List.map_cons, worst, List.foldr_cons, moreInteresting]
      exact Nat.max_assoc _ _ _
    · simp only [Disagree, not_or, not_exists, not_and, List.mem_cons, ne_eq, Decidable.not_not]
      have key1 : ∀ y, y = a.add x ∨ y ∈ l → y.numBlocksSend ≠ -1 → ∃ z, (z = a ∨ z = x ∨ z ∈ l) ∧
          z.numBlocksSend = y.numBlocksSend := by
        rintro y (rfl | hy) hne
        · simp only [TStats.add] at hne ⊢
          split
          · exact ⟨x, Or.inr (Or.inl rfl), rfl⟩
          · exact ⟨a, Or.inl rfl, rfl⟩
        · exact ⟨y, Or.inr (Or.inr hy), rfl⟩
      have key2 : ∀ y, y = a.add x ∨ y ∈ l → y.totalSenderBytes ≠ -1 → ∃ z, (z = a ∨ z = x ∨ z ∈ l) ∧
          z.totalSenderBytes = y.totalSenderBytes := by
        rintro y (rfl | hy) hne
        · simp only [TStats.add] at hne ⊢
          split
          · exact ⟨x, Or.inr (Or.inl rfl), rfl⟩
          · exact ⟨a, Or.inl rfl, rfl⟩
        · exact ⟨y, Or.inr (Or.inr hy), rfl⟩
      constructor
      · intro y hy z hz p q
        obtain ⟨y', hy', ey⟩ := key1 y hy p
        obtain ⟨z', hz', ez⟩ := key1 z hz q
        rw [← ey, ← ez]
        exact h1 y' hy' z' hz' (ey ▸ p) (ez ▸ q)
      · intro y hy z hz p q
        obtain ⟨y', hy', ey⟩ := key2 y hy p
        obtain ⟨z', hz', ez⟩ := key2 z hz q
        rw [← ey, ← ez]
        exact h2 y' hy' z' hz' (ey ▸ p) (ez ▸ q)

theorem foldl_local_bad (l : List TStats) : ∀ a : TStats, a.localErr ≠ eOK → (l.foldl TStats.add a).localErr ≠ eOK := by
  induction l with
  | nil => intro a h; exact h
  | cons x l ih =>
    intro a h
    rw [List.foldl_cons]
    refine ih _ ?_
    simp only [TStats.add]
    intro hc
    have := (moreInteresting_ok.1 hc).1
    split at this
    · simp [eERROR, eOK] at this
    · exact h this

theorem foldl_local_ok (l : List TStats) : ∀ a : TStats, (l.foldl TStats.add a).localErr = eOK →
    ¬ Disagree (a :: l) := by
  induction l with
  | nil =>
    intro a _ hd
    simp only [Disagree, List.mem_singleton] at hd
    rcases hd with ⟨x, rfl, y, rfl, _, _, h⟩ | ⟨x, rfl, y, rfl, _, _, h⟩ <;> exact h rfl
  | cons x l ih =>
    intro a h
    rw [List.foldl_cons] at h
    have hih := ih _ h
    have hax : (a.add x).localErr = eOK := by
      by_contra hc; exact foldl_local_bad l _ hc h
    simp only [TStats.add] at hax
    have h0 := (moreInteresting_ok.1 hax).1
    split at h0
    · simp [eERROR, eOK] at h0
    rename_i hm
    simp only [Bool.or_eq_true, decide_eq_true_eq, not_or, not_and, ne_eq, Decidable.not_not] at hm
    obtain ⟨m1, m2⟩ := hm
    simp only [Disagree, not_or, not_exists, not_and, List.mem_cons, ne_eq, Decidable.not_not] at hih ⊢
    obtain ⟨i1, i2⟩ := hih
    have key1 : ∀ y, y = a ∨ y = x ∨ y ∈ l → y.numBlocksSend ≠ -1 → ∃ z, (z = a.add x ∨ z ∈ l) ∧
        z.numBlocksSend = y.numBlocksSend := by
      rintro y (rfl | rfl | hy) hne
      · exact ⟨_, Or.inl rfl, by simp [TStats.add, hne]⟩
      · refine ⟨_, Or.inl rfl, ?_⟩
        simp only [TStats.add]
        split
        · rfl
        · rename_i hn; exact m1 hn hne
      · exact ⟨y, Or.inr hy, rfl⟩
    have key2 : ∀ y, y = a ∨ y = x ∨ y ∈ l → y.totalSenderBytes ≠ -1 → ∃ z, (z = a.add x ∨ z ∈ l) ∧
        z.totalSenderBytes = y.totalSenderBytes := by
      rintro y (rfl | rfl | hy) hne
      · exact ⟨_, Or.inl rfl, by simp [TStats.add, hne]⟩
      · refine ⟨_, Or.inl rfl, ?_⟩
        simp only [TStats.add]
        split
        · rfl
        · rename_i hn; exact m2 hn hne
      · exact ⟨y, Or.inr hy, rfl⟩
    constructor
    · intro y hy z hz p q
      obtain ⟨y', hy', ey⟩ := key1 y hy p
      obtain ⟨z', hz', ez⟩ := key1 z hz q
      rw [← ey, ← ez]
      exact i1 y' hy' z' hz' (ey ▸ p) (ez ▸ q)
    · intro y hy z hz p q
      obtain ⟨y', hy', ey⟩ := key2 y hy p
      obtain ⟨z', hz', ez⟩ := key2 z hz q
      rw [← ey, ← ez]
      exact i2 y' hy' z' hz' (ey ▸ p) (ez ▸ q)

theorem disagree_init (l : List TStats) : Disagree (({} : TStats) :: l) ↔ Disagree l := by
  constructor
  · rintro (⟨a, ha, b, hb, h1, h2, h3⟩ | ⟨a, ha, b, hb, h1, h2, h3⟩)
    · refine Or.inl ⟨a, ?_, b, ?_, h1, h2, h3⟩
      · rcases List.mem_cons.1 ha with rfl | h
        · exact absurd rfl h1
        · exact h
      · rcases List.mem_cons.1 hb with rfl | h
        · exact absurd rfl h2
        · exact h
    · refine Or.inr ⟨a, ?_, b, ?_, h1, h2, h3⟩
      · rcases List.mem_cons.1 ha with rfl | h
        · exact absurd rfl h1
        · exact h
      · rcases List.mem_cons.1 hb with rfl | h
        · exact absurd rfl h2
        · exact h
  · rintro (⟨a, ha, b, hb, h⟩ | ⟨a, ha, b, hb, h⟩)
    · exact Or.inl ⟨a, by simp [ha], b, by simp [hb], h⟩
    · exact Or.inr ⟨a, by simp [ha], b, by simp [hb], h⟩

/-- C24: the combined result is an error exactly when some thread had an error or two
threads were told different totals; this does not depend on the order. -/
theorem C24_error_iff (l : List TStats) :
    (sumStats l).errorCode ≠ eOK ↔ (∃ s ∈ l, s.errorCode ≠ eOK) ∨ Disagree l := by
  have hr : (sumStats l).remoteErr = worst (l.map (·.remoteErr)) := by
    have := foldl_remote l {}
    simpa [sumStats, eOK] using this
  constructor
  · intro h
    by_contra hc
    simp only [not_or, not_exists, not_and, ne_eq, Decidable.not_not] at hc
    obtain ⟨h1, h2⟩ := hc
    refine h (moreInteresting_ok.2 ⟨?_, ?_⟩)
    · have := foldl_local_agree l {} (by rw [disagree_init]; exact h2)
      rw [sumStats, this]
      have : worst (l.map (·.localErr)) = eOK := by
        rw [worst_ok]; intro c hc
        obtain ⟨s, hs, rfl⟩ := List.mem_map.1 hc
        exact (moreInteresting_ok.1 (h1 s hs)).1
      rw [this]; rfl
    · rw [hr, worst_ok]; intro c hc
      obtain ⟨s, hs, rfl⟩ := List.mem_map.1 hc
      exact (moreInteresting_ok.1 (h1 s hs)).2
  · intro h hok
    obtain ⟨hl, hrm⟩ := moreInteresting_ok.1 hok
    have hd := foldl_local_ok l {} hl
    have hlw := foldl_local_agree l {} hd
    rw [disagree_init] at hd
    rcases h with ⟨s, hs, hne⟩ | h
    · rw [sumStats, hlw] at hl
      have w1 := worst_ok.1 (moreInteresting_ok.1 hl).2 _ (List.mem_map.2 ⟨s, hs, rfl⟩)
      rw [hr] at hrm
      have w2 := worst_ok.1 hrm _ (List.mem_map.2 ⟨s, hs, rfl⟩)
      exact hne (moreInteresting_ok.2 ⟨w1, w2⟩)
    · exact hd h

example : (sumStats [{ localErr := eABORT }, {}]).errorCode ≠ eOK := by decide +kernel

/-- C24: whether the result is an error does not depend on the order. -/
theorem C24_error_any_order {l1 l2 : List TStats} (h : l1.Perm l2) :
    (sumStats l1).errorCode = eOK ↔ (sumStats l2).errorCode = eOK := by
  have e : (∃ s ∈ l1, s.errorCode ≠ eOK) ∨ Disagree l1 ↔ (∃ s ∈ l2, s.errorCode ≠ eOK) ∨ Disagree l2 := by
    rw [disagree_perm h]; simp only [h.mem_iff]
  have := (C24_error_iff l1).trans (e.trans (C24_error_iff l2).symm)
  constructor
  · intro h1; by_contra h2; exact this.2 h2 h1
  · intro h1; by_contra h2; exact this.1 h2 h1

/-- C24: which code is reported is the largest code of any thread, in every order, as
long as the threads were told the same totals.  Missing: threads told different totals,
where the code does depend on the order (`C24_code_depends_on_order`). -/
theorem C24_code_any_order_partial {l1 l2 : List TStats} (h : l1.Perm l2) (hd : ¬ Disagree l1) :
    (sumStats l1).errorCode = (sumStats l2).errorCode ∧
    (sumStats l1).errorCode = worst (l1.map TStats.errorCode) := by
  have gen : ∀ l : List TStats, ¬ Disagree l → (sumStats l).errorCode = worst (l.map TStats.errorCode) := by
    intro l hd
    have h1 := foldl_local_agree l {} (by rw [disagree_init]; exact hd)
    have h2 := foldl_remote l {}
    simp only [TStats.errorCode, sumStats, h1, h2]
    clear h1 h2 hd
    induction l with
    | nil => rfl
    | cons x l ih =>
      have n4 : ∀ a b c d e : Nat, max (max 0 c) (max 0 d) = e →
          max (max 0 (max a c)) (max 0 (max b d)) = max (max a b) e := by omega
      exact n4 _ _ _ _ _ ih
  refine ⟨?_, gen l1 hd⟩
  rw [gen l1 hd, gen l2 (by rw [← disagree_perm h]; exact hd)]
  exact worst_perm (h.map _)

example : (sumStats [{ localErr := eABORT }, { remoteErr := eCONN_ERROR }]).errorCode = eCONN_ERROR := by
  decide +kernel

/-- Finding: with different announced totals the code depends on the order, because the
mismatch replaces a worse code collected earlier (Reporting.cpp:40). -/
theorem C24_code_depends_on_order :
    (sumStats [{ numBlocksSend := 1 }, { numBlocksSend := 2, localErr := eSOCKET_READ_ERROR }]).errorCode =
      eSOCKET_READ_ERROR ∧
    (sumStats [{ numBlocksSend := 2, localErr := eSOCKET_READ_ERROR }, { numBlocksSend := 1 }]).errorCode =
      eERROR := by decide +kernel

/-! ### The sender's report -/

/-- C22: a report of success means that all bytes of the discovered files were sent, no
directory failed, and no file failed with an error. -/
theorem C22_success_means_sent (i : SenderInput) (h : (senderReport i).errorCode = eOK) :
    (i.threads.map (·.effDataBytes)).sum = i.totalFileSize ∧ i.failedDirs = [] ∧
    (∀ f ∈ i.failedSources, f.errorCode = eOK) ∧ (i.threads ≠ [] → ∃ t ∈ i.threads, t.errorCode = eOK) := by
  have hcode := (moreInteresting_ok.1 h).1
  have hsum := (C24_counters_sum i.threads).2.2.2.1
  have hfold : ∀ (l : List TStats) (c : ErrCode),
      l.foldl (fun c s => moreInteresting c s.errorCode) c = eOK → c = eOK ∧ ∀ f ∈ l, f.errorCode = eOK := by
    intro l
    induction l with
    | nil => intro c h; exact ⟨h, by simp⟩
    | cons x l ih =>
      intro c h
      obtain ⟨h1, h2⟩ := ih _ h
      obtain ⟨h3, h4⟩ := moreInteresting_ok.1 h1
      exact ⟨h3, by simpa using ⟨h4, h2⟩⟩
  simp only [senderReport] at hcode
  generalize hc1 : (if i.failedDirs.isEmpty then (sumStats i.threads).errorCode
    else moreInteresting (sumStats i.threads).errorCode eBYTE_SOURCE_READ_ERROR) = code1 at hcode
  generalize hc2 : i.failedSources.foldl (fun c s => moreInteresting c s.errorCode) code1 = code2 at hcode
  rw [hsum] at hcode
  split at hcode
  · split at hcode
    · simp [eERROR, eOK] at hcode
    · rename_i h1; exact absurd hcode h1
  · rename_i hb
    rw [ne_eq, Decidable.not_not] at hb
    refine ⟨hb, ?_⟩
    split at hcode
    · rename_i hc
      simp only [Bool.and_eq_true, List.isEmpty_iff, List.any_eq_true, beq_iff_eq] at hc
      obtain ⟨⟨_, hd, hs⟩, t, ht, hto⟩ := hc
      exact ⟨hd, by simp [hs], fun _ => ⟨t, ht, hto⟩⟩
    · obtain ⟨h1, h2⟩ := hfold _ _ (hc2.trans hcode)
      rw [h1] at hc1
      have h3 : (sumStats i.threads).errorCode = eOK ∧ i.failedDirs = [] := by
        split at hc1
        · rename_i he; exact ⟨hc1, by simpa using he⟩
        · have := (moreInteresting_ok.1 hc1).2; simp [eBYTE_SOURCE_READ_ERROR, eOK] at this
      refine ⟨h3.2, h2, ?_⟩
      intro hne
      have hall : ∀ s ∈ i.threads, s.errorCode = eOK := by
        intro s hs; by_contra hc
        exact (C24_error_iff i.threads).2 (Or.inl ⟨s, hs, hc⟩) h3.1
      obtain ⟨t, ht⟩ := List.exists_mem_of_ne_nil _ hne
      exact ⟨t, ht, hall t ht⟩

/-- A run where one thread failed and another finished its work. -/
def okInput : SenderInput :=
  { failedSources := [], threads := [{ effDataBytes := 3, localErr := eSOCKET_WRITE_ERROR }, { effDataBytes := 4 }]
    failedDirs := [], totalFileSize := 7, numDiscovered := 2 }

example : (senderReport okInput).errorCode = eOK := by decide +kernel

/-- C22: conversely, success is reported when all bytes were sent, nothing failed and one
thread finished without error. -/
theorem C22_success_reported (i : SenderInput) (hb : (i.threads.map (·.effDataBytes)).sum = i.totalFileSize)
    (hd : i.failedDirs = []) (hf : i.failedSources = []) (ht : ∃ t ∈ i.threads, t.errorCode = eOK) :
    (senderReport i).errorCode = eOK := by
  have hsum := (C24_counters_sum i.threads).2.2.2.1
  have hany : (i.threads.any fun s => s.errorCode == eOK) = true := by
    simp only [List.any_eq_true, beq_iff_eq]; exact ht
  have hl : (senderReport i).localErr = eOK := by
    simp only [senderReport, hd, hf, hany, hsum, hb]
    generalize (sumStats i.threads).errorCode = c
    by_cases hc : c = eOK <;> simp [hc]
  exact moreInteresting_ok.2 ⟨hl, hl⟩

/-- C22 for the whole sender: whatever the threads, the queue and the receiver's
checkpoints did, if the final report says OK then no byte of any discovered file is left
in the queue, in a failed source, in a thread's hands or in a block that a checkpoint cut
short. -/
theorem C22_nothing_left (mb : Int) (del : Bool) (n : Nat) (evs : List SEvent) (s : SSys) (i : SenderInput)
    (hl : SListFirst evs) (hh : Along HonestStep (SSys.init mb del n) evs)
    (h : sRun (SSys.init mb del n) evs = .ok s) (hc : ∀ b ∈ s.created, 0 ≤ b.size)
    (hth : i.threads.map (·.effDataBytes) = s.threads.map (fun th => th.hist.stats.effDataBytes))
    (htot : i.totalFileSize = s.q.totalFileSize) (hok : (senderReport i).errorCode = eOK) :
    ∀ x ∈ s.unsent, x.size = 0 := by
  refine all_sent mb del n evs s hl hh h hc ?_
  have h1 := (C22_success_means_sent i hok).1
  rw [htot, hth] at h1
  exact h1

theorem createInternal_failed {q q' : QState} {f : FileRec} {new : List Source} (h : createInternal q f = .ok (q', new)) :
    q'.failed = q.failed := by
  unfold createInternal at h
  split at h
  · cases h
  · cases h; rfl
  · split at h
    · cases h
    · cases h; rfl

theorem recreateLoop_failed (fs : List FileRec) : ∀ (q q' : QState) (new : List Source),
    recreateLoop q fs = .ok (q', new) → q'.failed = q.failed := by
  induction fs with
  | nil => intro q q' new h; cases h; rfl
  | cons f fs ih =>
    intro q q' new h
    unfold recreateLoop at h
    split at h
    · cases h
    · rename_i q1 s1 h1
      split at h
      · cases h
      · rename_i q2 s2 h2
        cases h
        exact (ih _ _ _ h2).trans (createInternal_failed h1)

theorem enqueueDeletions_failed (q : QState) : (enqueueDeletions q).1.failed = q.failed := by
  unfold enqueueDeletions
  split
  · rfl
  · split <;> rfl

/-- Only a failed open adds to the failed blocks of the queue. -/
theorem sStep_failed {s s' : SSys} {e : SEvent} (h : sStep s e = .ok s') :
    s'.q.failed = s.q.failed ∨ ∃ x, s'.q.failed = s.q.failed ++ [openFailedSource x] := by
  have gb : ∀ t th l, giveBack s t th l = .ok s' → s'.q.failed = s.q.failed := by
    intro t th l hg
    rw [giveBack_ok hg]
  have ac : ∀ t th r, applyCp s t th r = .ok s' → s'.q.failed = s.q.failed := by
    intro t th r hr
    unfold applyCp at hr
    split at hr
    · cases hr
    · exact gb _ _ _ hr
  cases e with
  | discover f =>
    simp only [sStep] at h
    split at h
    · cases h
    · split at h
      · cases h
      · rename_i q new hq
        cases h
        have := createInternal_failed (q := { s.q with shared := s.q.shared ++ [f] }) hq
        exact .inl this
  | finishDiscovery =>
    simp only [sStep] at h
    split at h
    · cases h
    · cases h
      exact .inl (enqueueDeletions_failed _)
  | setPrev infos =>
    simp only [sStep] at h
    split at h
    · cases h
    · rename_i q new hq
      cases h
      unfold setPrev at hq
      split at hq
      · cases hq
      · dsimp only at hq
        split at hq
        · cases hq
        · rename_i q2 s2 h2
          cases hq
          have := recreateLoop_failed _ _ _ _ h2
          exact .inl ((enqueueDeletions_failed _).trans this)
  | pop t x =>
    simp only [sStep] at h
    split at h
    · split at h
      · cases h
      · split at h
        · cases h
        · rename_i q hq
          cases h
          unfold popSource at hq
          split at hq
          · cases hq; exact .inl rfl
          · cases hq
    · cases h
  | openOk t =>
    simp only [sStep] at h
    split at h
    · cases h; exact .inl rfl
    · cases h
  | openFail t =>
    simp only [sStep] at h
    split at h
    · cases h; exact .inr ⟨_, rfl⟩
    · cases h
  | sent t o =>
    simp only [sStep] at h
    split at h
    · exact .inl (gb _ _ _ h)
    · cases h
  | localCp t cp =>
    simp only [sStep] at h
    split at h
    · split at h
      · cases h
      · exact .inl (ac _ _ _ h)
    · cases h
  | globalCp t cp =>
    simp only [sStep] at h
    split at h
    · exact .inl (ac _ _ _ h)
    · cases h; exact .inl rfl
  | markAll t =>
    simp only [sStep] at h
    split at h
    · cases h; exact .inl rfl
    · cases h
  | returnUnacked t =>
    simp only [sStep] at h
    split at h
    · exact .inl (ac _ _ _ h)
    · cases h
  | exit t =>
    simp only [sStep] at h
    split at h
    · split at h
      · cases h
      · cases h; exact .inl rfl
    · cases h

theorem sRun_failed (evs : List SEvent) : ∀ (s s' : SSys), (∀ x ∈ s.q.failed, x.stats.failed = true) → sRun s evs = .ok s' →
    ∀ x ∈ s'.q.failed, x.stats.failed = true := by
  induction evs with
  | nil => intro s s' hs h; cases h; exact hs
  | cons e evs ih =>
    intro s s' hs h
    unfold sRun at h
    split at h
    · rename_i s1 h1
      refine ih s1 s' (fun x hx => ?_) h
      rcases sStep_failed h1 with h2 | ⟨y, h2⟩
      · exact hs x (h2 ▸ hx)
      · rw [h2, List.mem_append, List.mem_singleton] at hx
        rcases hx with hx | rfl
        · exact hs x hx
        · rfl
    · cases h
    · cases h

/-- C22 for files that could not be opened: if the final report says OK then no file failed to open, empty or not.  `hf`:
the blocks that failed are in the report with the codes they have. -/
theorem C22_all_opened (mb : Int) (del : Bool) (n : Nat) (evs : List SEvent) (s : SSys) (i : SenderInput)
    (h : sRun (SSys.init mb del n) evs = .ok s)
    (hf : ∀ x ∈ s.q.failed, ∃ f ∈ i.failedSources, (f.errorCode = eOK ↔ x.stats.failed = false))
    (hok : (senderReport i).errorCode = eOK) : s.q.failed = [] := by
  rcases hs : s.q.failed with _ | ⟨x, l⟩
  · rfl
  · have hx : x ∈ s.q.failed := by rw [hs]; simp
    obtain ⟨f, h1, h2⟩ := hf x hx
    have h3 := h2.1 ((C22_success_means_sent i hok).2.2.1 f h1)
    rw [sRun_failed evs _ s (fun x hx => by cases hx) h x hx] at h3
    cases h3

/-- A run in which an empty file cannot be opened. -/
example : ∃ s, sRun (SSys.init 0 false 1) [.discover ⟨[97], 0⟩, .finishDiscovery,
    .pop 0 { name := [97], seqId := 1, fileSize := 0, status := NOT_EXISTS, offset := 0, size := 0 }, .openFail 0] = .ok s ∧
    s.q.failed.length = 1 := by
  refine ⟨_, rfl, ?_⟩
  decide +kernel

/-- Finding: an empty file that is still in the queue does not prevent a report of
success, if every thread says OK: it counts neither as bytes nor as an error
(Reporting.cpp:138-143, DirectorySourceQueue.cpp:557-564). -/
theorem C22_empty_file_not_noticed :
    (senderReport { okInput with
      failedSources := [{ id := [65] }], threads := [{ effDataBytes := 7 }] }).errorCode = eOK := by decide +kernel

/-! ### The receiver's report -/

theorem firstAnnounced_mem {l : List Int} (h : firstAnnounced l ≠ -1) : firstAnnounced l ∈ l := by
  induction l with
  | nil => simp [firstAnnounced] at h
  | cons x l ih =>
    simp only [firstAnnounced] at h ⊢
    split
    · rename_i hx; simp only [hx, if_true] at h; exact List.mem_cons_of_mem _ (ih h)
    · simp

theorem firstAnnounced_none {l : List Int} (h : firstAnnounced l = -1) : ∀ x ∈ l, x = -1 := by
  induction l with
  | nil => simp
  | cons x l ih =>
    simp only [firstAnnounced] at h
    split at h
    · rename_i hx
      intro y hy
      rcases List.mem_cons.1 hy with rfl | hy
      · exact hx
      · exact ih h y hy
    · rename_i hx; exact absurd h hx

theorem receiver_ok (l : List TStats) (h : (receiverReport l).errorCode = eOK) :
    (sumStats l).numBlocksSend ≠ -1 ∧ (sumStats l).numBlocksSend = (sumStats l).numBlocks ∧
    ((sumStats l).totalSenderBytes = -1 ∨ (sumStats l).totalSenderBytes = (sumStats l).effDataBytes) ∧
    (sumStats l).localErr ≠ eENCRYPTION_ERROR ∧ (sumStats l).remoteErr = eOK := by
  obtain ⟨h1, h2⟩ := moreInteresting_ok.1 h
  simp only [receiverReport] at h1 h2
  split at h1
  · have := (moreInteresting_ok.1 h1).2; simp [eERROR, eOK] at this
  · rename_i hb
    rw [not_or, ne_eq, Decidable.not_not] at hb
    split at h1
    · have := (moreInteresting_ok.1 h1).2; simp [eERROR, eOK] at this
    · rename_i hy
      refine ⟨hb.1, hb.2, ?_, ?_, h2⟩
      · by_contra hc; rw [not_or] at hc; exact hy hc
      · split at h1
        · rename_i he; exact he.2
        · rw [h1]; simp [eENCRYPTION_ERROR, eOK]

/-- C23: a report of success means that the number of blocks received is one a thread was
told by the sender, the bytes received are what a thread was told if any thread was told
a number, and no thread was told of an error by the sender. -/
theorem C23_success_means_received (l : List TStats) (h : (receiverReport l).errorCode = eOK) :
    (∃ t ∈ l, t.numBlocksSend ≠ -1 ∧ t.numBlocksSend = (l.map (·.numBlocks)).sum) ∧
    ((∀ t ∈ l, t.totalSenderBytes = -1) ∨
      ∃ t ∈ l, t.totalSenderBytes ≠ -1 ∧ t.totalSenderBytes = (l.map (·.effDataBytes)).sum) ∧
    (∀ t ∈ l, t.remoteErr = eOK) := by
  obtain ⟨h1, h2, h3, _, h5⟩ := receiver_ok l h
  obtain ⟨_, _, _, c4, _, c6, _⟩ := C24_counters_sum l
  have e1 : (sumStats l).numBlocksSend = firstAnnounced (l.map (·.numBlocksSend)) := by
    have := foldl_blocksSend l {}
    simpa [sumStats, firstAnnounced] using this
  have e2 : (sumStats l).totalSenderBytes = firstAnnounced (l.map (·.totalSenderBytes)) := by
    have := foldl_senderBytes l {}
    simpa [sumStats, firstAnnounced] using this
  have e3 : (sumStats l).remoteErr = worst (l.map (·.remoteErr)) := by
    have := foldl_remote l {}
    simpa [sumStats, eOK] using this
  rw [c6, e1] at h2
  rw [e1] at h1
  refine ⟨?_, ?_, ?_⟩
  · obtain ⟨t, ht, he⟩ := List.mem_map.1 (firstAnnounced_mem h1)
    exact ⟨t, ht, by rw [he]; exact h1, by rw [he]; exact h2⟩
  · by_cases hz : firstAnnounced (l.map (·.totalSenderBytes)) = -1
    · left; intro t ht; exact firstAnnounced_none hz _ (List.mem_map.2 ⟨t, ht, rfl⟩)
    · right
      obtain ⟨t, ht, he⟩ := List.mem_map.1 (firstAnnounced_mem hz)
      refine ⟨t, ht, by rw [he]; exact hz, ?_⟩
      rw [he, ← c4, ← e2]
      rcases h3 with h3 | h3
      · rw [e2] at h3; exact absurd h3 hz
      · exact h3
  · rw [e3, worst_ok] at h5
    intro t ht; exact h5 _ (List.mem_map.2 ⟨t, ht, rfl⟩)

/-- One thread lost its connection, the other got everything. -/
def okThreads : List TStats :=
  [{ localErr := eSOCKET_READ_ERROR, numBlocks := 1, effDataBytes := 10 },
   { numBlocks := 2, effDataBytes := 20, numBlocksSend := 3, totalSenderBytes := 30 }]

example : (receiverReport okThreads).errorCode = eOK := by decide +kernel

/-- C23: success and no encryption failure, provided the threads were told the same
totals and no thread has a code above ENCRYPTION_ERROR.  Missing: the two findings
below, where an encryption failure is hidden. -/
theorem C23_no_encryption_failure_partial (l : List TStats) (h : (receiverReport l).errorCode = eOK)
    (hd : ¬ Disagree l) (hc : ∀ t ∈ l, t.localErr ≤ eENCRYPTION_ERROR) :
    ∀ t ∈ l, t.localErr ≠ eENCRYPTION_ERROR := by
  obtain ⟨_, _, _, h4, _⟩ := receiver_ok l h
  intro t ht he
  have h1 := foldl_local_agree l {} (by rw [disagree_init]; exact hd)
  have hmem : ∀ (l : List TStats), (∀ t ∈ l, t.localErr ≤ eENCRYPTION_ERROR) → t ∈ l →
      worst (l.map (·.localErr)) = eENCRYPTION_ERROR := by
    intro l
    induction l with
    | nil => intro _ h; simp at h
    | cons x l ih =>
      intro hc hm
      simp only [List.mem_cons, forall_eq_or_imp] at hc hm
      have hle : ∀ l : List TStats, (∀ t ∈ l, t.localErr ≤ eENCRYPTION_ERROR) →
          worst (l.map (·.localErr)) ≤ eENCRYPTION_ERROR := by
        intro l
        induction l with
        | nil => intro _; simp [worst, eOK]
        | cons y l ih =>
          intro hc
          simp only [List.mem_cons, forall_eq_or_imp] at hc
          have := ih hc.2
          simp only [worst, List.map_cons, List.foldr_cons] at this ⊢
          exact Nat.max_le.2 ⟨hc.1, this⟩
      have hl := hle l hc.2
      simp only [worst, List.map_cons, List.foldr_cons] at ih hl ⊢
      rcases hm with rfl | hm
      · rw [he]; exact Nat.max_eq_left hl
      · rw [ih hc.2 hm]; exact Nat.max_eq_right hc.1
  have h2 := hmem l hc ht
  rw [sumStats, h1, h2] at h4
  exact h4 rfl

/-- C23: an encryption failure sticks when all bytes arrived. -/
example : (receiverReport [{ localErr := eENCRYPTION_ERROR, numBlocks := 1, effDataBytes := 10 },
   { numBlocks := 2, effDataBytes := 20, numBlocksSend := 3, totalSenderBytes := 30 }]).errorCode =
    eENCRYPTION_ERROR := by decide +kernel

/-- Finding: an encryption failure of one thread is hidden by a larger code of another
(Reporting.cpp:213-218). -/
theorem C23_encryption_failure_hidden :
    (receiverReport ({ localErr := eENCRYPTION_ERROR } :: { localErr := eGLOBAL_CHECKPOINT_ABORT } ::
      okThreads)).errorCode = eOK := by decide +kernel

/-- Finding: two threads were told different totals, one of them failed to decrypt, and
the receiver still reports success (Reporting.cpp:40 and 213-218). -/
theorem C23_disagreement_hidden :
    (receiverReport [{ localErr := eENCRYPTION_ERROR, numBlocksSend := 1, numBlocks := 1 },
      { numBlocksSend := 2 }]).errorCode = eOK := by decide +kernel

end Wdt
