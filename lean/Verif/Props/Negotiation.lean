import Verif.Model.Negotiation
/-
C12: version negotiation.  C49: agreement on the checksum footer after it.
-/
namespace Wdt

/-! ## C12 Version negotiation converges on a version both sides support -/

/-- Two builds that are both at least version 10 agree, after at most two
connections, on the smaller of the two versions, on both sides. -/
theorem C12_agree_on_min (s r : Int) (hs : 10 ≤ s) (hr : 10 ≤ r) :
    handshake 2 s r = .ok (.agreed (min s r) (min s r)) := by
  unfold handshake receiverOnSettings
  by_cases h : s = r
  · subst h; simp
  · have e1 : negotiateProtocol s r = min r s := by unfold negotiateProtocol; rw [if_neg (by omega)]
    simp only [ne_eq, h, not_false_eq_true, if_true, e1]
    rw [if_neg (by omega)]
    by_cases h2 : s < r
    · have : min r s = s := by omega
      simp only [this, not_true_eq_false, if_false]
      have : min s r = s := by omega
      rw [this]
    · have e2 : min r s = r := by omega
      have e4 : min s r = r := by omega
      have e3 : negotiateProtocol r s = r := by
        unfold negotiateProtocol; rw [if_neg (by omega)]; omega
      rw [if_pos (by omega)]
      simp only [e2, e4]
      unfold senderOnMismatch
      rw [if_pos e3, if_pos (by omega)]
      simp only
      unfold handshake receiverOnSettings
      simp

/-- Whatever the (positive) versions, the exchange ends within two connections,
without an internal check failing; if it ends in agreement both sides use the
same version and neither uses one above its own. -/
theorem C12_sound (s r : Int) (hs : 0 < s) (hr : 0 < r) :
    (∃ v, handshake 2 s r = .ok (.agreed v v) ∧ v ≤ s ∧ v ≤ r ∧ 0 < v) ∨
    handshake 2 s r = .ok .failed := by
  by_cases h : s = r
  · left
    subst h
    refine ⟨s, ?_, Int.le_refl _, Int.le_refl _, hs⟩
    unfold handshake receiverOnSettings
    simp
  · by_cases h1 : 10 ≤ s
    · by_cases h2 : 10 ≤ r
      · left
        exact ⟨min s r, C12_agree_on_min s r h1 h2, by omega, by omega, by omega⟩
      · right
        have e1 : negotiateProtocol s r = r := by
          unfold negotiateProtocol; rw [if_neg (by omega)]; omega
        have e2 : negotiateProtocol r s = 0 := by unfold negotiateProtocol; rw [if_pos (by omega)]
        unfold handshake receiverOnSettings
        simp only [ne_eq, h, not_false_eq_true, if_true, e1]
        rw [if_neg (by omega), if_pos (by omega)]
        simp only
        unfold senderOnMismatch
        rw [if_neg (by omega)]
    · right
      have e1 : negotiateProtocol s r = 0 := by unfold negotiateProtocol; rw [if_pos (by omega)]
      unfold handshake receiverOnSettings
      simp [h, e1]

/-- A receiver that asks for another version uses it itself from then on; it is the smaller of the two. -/
theorem C12_asks_what_it_uses (s r n : Int) (h : (receiverOnSettings s r).2 = .versionMismatch n) :
    (receiverOnSettings s r).1 = n ∧ n = r ∧ n < s := by
  unfold receiverOnSettings negotiateProtocol at h ⊢
  by_cases h1 : s = r
  · simp [h1] at h
  · by_cases h2 : r < 10 ∨ s < 10
    · by_cases h3 : s < 10
      · simp [h1, h3] at h
      · simp only [ne_eq, h1, not_false_eq_true, if_true, h3, if_false] at h ⊢
        by_cases h4 : min r s = 0
        · simp [h4] at h
        · rw [if_neg h4] at h ⊢
          by_cases h5 : min r s = s
          · simp [h5] at h
          · rw [if_pos h5] at h ⊢
            simp only [RecvAnswer.versionMismatch.injEq] at h ⊢
            omega
    · have h3 : ¬ s < 10 := by omega
      simp only [ne_eq, h1, not_false_eq_true, if_true, h3, if_false] at h ⊢
      rw [if_neg (by omega)] at h ⊢
      by_cases h5 : min r s = s
      · simp [h5] at h
      · rw [if_pos h5] at h ⊢
        simp only [RecvAnswer.versionMismatch.injEq] at h ⊢
        omega

/-- Case. -/
example : (receiverOnSettings 31 27).2 = .versionMismatch 27 := by decide

/-- Versions below 10 are refused by either side unless the builds are equal. -/
theorem C12_old_refused (s r : Int) (hne : s ≠ r) (hs : 0 < s) (hr : 0 < r) (h : s < 10 ∨ r < 10) :
    handshake 2 s r = .ok .failed := by
  rcases C12_sound s r hs hr with ⟨v, hv, h1, h2, h3⟩ | h'
  · exfalso
    unfold handshake receiverOnSettings at hv
    by_cases hs10 : s < 10
    · have e1 : negotiateProtocol s r = 0 := by unfold negotiateProtocol; rw [if_pos (by omega)]
      simp [hne, e1] at hv
    · have hr10 : r < 10 := by omega
      have e1 : negotiateProtocol s r = r := by
        unfold negotiateProtocol; rw [if_neg (by omega)]; omega
      have e2 : negotiateProtocol r s = 0 := by unfold negotiateProtocol; rw [if_pos (by omega)]
      simp only [ne_eq, hne, not_false_eq_true, if_true, e1] at hv
      rw [if_neg (by omega), if_pos (by omega)] at hv
      simp only at hv
      unfold senderOnMismatch at hv
      rw [if_neg (by omega)] at hv
      simp at hv
  · exact h'

/-- The sender threads only proceed with one common version: every thread that
negotiated anything negotiated exactly that version. -/
theorem C12_threads_agree (acc : Int) (vs : List Int) (v : Int)
    (h : combineNegotiated acc vs = .ok (some v)) :
    v > 0 ∧ (∀ x ∈ vs, x > 0 → x = v) ∧ (acc > 0 → acc = v) := by
  induction vs generalizing acc with
  | nil =>
    unfold combineNegotiated at h
    split at h
    · simp only [Except.ok.injEq, Option.some.injEq] at h
      subst h
      exact ⟨by assumption, by simp, fun _ => rfl⟩
    · simp at h
  | cons x vs ih =>
    unfold combineNegotiated at h
    split at h
    · split at h
      · simp at h
      · obtain ⟨h1, h2, h3⟩ := ih x h
        refine ⟨h1, ?_, ?_⟩
        · intro y hy hpos
          rcases List.mem_cons.1 hy with rfl | hy
          · exact h3 hpos
          · exact h2 y hy hpos
        · intro ha
          have := h3 (by assumption)
          omega
    · obtain ⟨h1, h2, h3⟩ := ih acc h
      refine ⟨h1, ?_, h3⟩
      intro y hy hpos
      rcases List.mem_cons.1 hy with rfl | hy
      · omega
      · exact h2 y hy hpos

/-- And when all threads talked to the same receiver build (some of them may not
have negotiated at all), they do proceed. -/
theorem C12_threads_proceed (v : Int) (hv : 0 < v) (vs : List Int) (h : ∀ x ∈ vs, x = 0 ∨ x = v)
    (hex : v ∈ vs) : combineNegotiated 0 vs = .ok (some v) := by
  have key : ∀ (vs : List Int) (acc : Int), (acc = 0 ∨ acc = v) → (∀ x ∈ vs, x = 0 ∨ x = v) →
      (acc = v ∨ v ∈ vs) → combineNegotiated acc vs = .ok (some v) := by
    intro vs
    induction vs with
    | nil =>
      intro acc ha _ hor
      rcases hor with rfl | hor
      · unfold combineNegotiated; rw [if_pos hv]
      · simp at hor
    | cons x vs ih =>
      intro acc ha hx hor
      unfold combineNegotiated
      have hxs : ∀ y ∈ vs, y = 0 ∨ y = v := fun y hy => hx y (List.mem_cons_of_mem _ hy)
      rcases hx x (by simp) with rfl | rfl
      · rw [if_neg (by omega)]
        refine ih acc ha hxs ?_
        rcases hor with h | h
        · exact Or.inl h
        · rcases List.mem_cons.1 h with h | h
          · omega
          · exact Or.inr h
      · rw [if_pos hv, if_neg (by rintro ⟨h1, h2⟩; rcases ha with ha | ha <;> omega)]
        exact ih x (Or.inr rfl) hxs (Or.inl rfl)
  exact key vs 0 (Or.inl rfl) h (Or.inr hex)

/-- Disagreement with the code found here: a peer that answers VERSION_MISMATCH
with version 0 passes the sender's test and makes the sender fail an internal
check (SenderThread.cpp:854, 911) instead of ending the transfer with an
error. -/
theorem C12_zero_version_crashes (s : Int) : senderOnMismatch 0 s = .error .check := by
  unfold senderOnMismatch negotiateProtocol
  simp

/-- A receiver of this code never sends such an answer. -/
theorem C12_receiver_never_answers_zero (s r v : Int) (hr : 0 < r)
    (h : (receiverOnSettings s r).2 = .versionMismatch v) : 0 < v := by
  unfold receiverOnSettings at h
  split at h
  · split at h
    · simp at h
    · split at h
      · simp only [RecvAnswer.versionMismatch.injEq] at h
        subst h
        unfold negotiateProtocol at *
        split
        · simp_all
        · omega
      · simp at h
  · simp at h

example : handshake 2 31 30 = .ok (.agreed 30 30) := by decide +kernel
example : combineNegotiated 0 [0, 25, 0, 25] = .ok (some 25) := by decide +kernel

/-! ## C49 Both sides agree whether a checksum follows each block -/

/-- A thread that connects with the version it started with agrees with its
receiver. -/
theorem C49_initial_agreement (v : Int) (enable : Bool) :
    receiverExpectsFooter (SenderThreadVer.init v enable) = (SenderThreadVer.init v enable).footer := by
  unfold receiverExpectsFooter SenderThreadVer.init footerFor
  have e1 : SETTINGS_FLAG_VERSION = 12 := rfl
  have e2 : CHECKSUM_VERSION = 12 := rfl
  rw [e1, e2]
  by_cases h : v ≥ 12 <;> simp [h]

/-- After negotiation the thread that ran the funnel agrees with its receiver;
the other threads do when the negotiated version still has checksums or when
checksums were off anyway.  Missing: the other threads for negotiated versions
10 and 11, where the code violates the property (next theorem). -/
theorem C49_after_negotiation_partial (t : SenderThreadVer) (first : Bool) (n : Int) (enable : Bool)
    (h : first = true ∨ n ≥ 12 ∨ t.footer = false) :
    receiverExpectsFooter (t.resolve first n enable) = (t.resolve first n enable).footer := by
  unfold receiverExpectsFooter SenderThreadVer.resolve footerFor
  have e1 : SETTINGS_FLAG_VERSION = 12 := rfl
  have e2 : CHECKSUM_VERSION = 12 := rfl
  rw [e1, e2]
  by_cases hn : n ≥ 12
  · simp [hn]
  · rcases h with h | h | h
    · simp [h, hn]
    · omega
    · by_cases hf : first = true
      · simp [hf, hn]
      · simp [hf, hn, h]

/-- Disagreement with the code: with checksums enabled, a thread other than the
one that ran the funnel keeps sending footers after negotiating version 11 (or
10), while the receiver does not expect them. -/
theorem C49_violated : ∃ v n : Int, n ≥ 10 ∧ handshake 2 v n = .ok (.agreed n n) ∧
    receiverExpectsFooter ((SenderThreadVer.init v true).resolve false n true) ≠
      ((SenderThreadVer.init v true).resolve false n true).footer :=
  ⟨30, 11, by decide, by decide +kernel, by decide +kernel⟩

end Wdt
