import Verif.Lemmas.QueueWait
/-
C73: sender threads that wait for something to send are not forgotten.
C74: the application is asked for the next batch of files when the batch before is out.
-/
namespace Wdt

/-! ### C73 -/

/-- A thread that sleeps although there is something to send, or although nothing more will come:
then another thread is awake in the queue, or about to wake somebody. -/
theorem C73_not_forgotten (c : WCfg) (es : List QWEvent) (s : QW) (h : qwRun c {} es = some s) (t : Nat) (ht : t < c.n)
    (hs : s.th t = .asleep) (hw : s.queue ≠ 0 ∨ s.init = true) :
    ∃ u < c.n, s.th u = .woken ∨ ∃ k, s.th u = .notifying (k + 1) := by
  have hi := (QWInv.init c).run h
  have hA : 0 < tsum c.n wA s.th := tsum_pos.2 ⟨t, ht, by rw [hs]; decide⟩
  have h1 := hi.woken hA
  have hq : 0 < s.queue := by
    rcases hw with h | h
    · omega
    · exact hi.last h hA
  obtain ⟨u, hu, hu2⟩ := tsum_pos.1 (show 0 < tsum c.n wW s.th by omega)
  refine ⟨u, hu, ?_⟩
  cases e : s.th u with
  | woken => exact .inl rfl
  | notifying k =>
    rw [e] at hu2
    cases k with
    | zero => simp [wW] at hu2
    | succ k => exact .inr ⟨k, rfl⟩
  | _ => rw [e] at hu2; simp [wW] at hu2

/-- Steps that threads make inside the queue on their own. -/
def QWEvent.own : QWEvent → Bool
  | .resume _ => true
  | .notify _ _ => true
  | _ => false

/-- How much threads have to do there. -/
def wM : QPh → Nat
  | .asleep => 2
  | .woken => 1
  | .notifying k => k + 1
  | _ => 0

theorem wakeAll_M (s : QW) (n : Nat) : tsum n wM s.wakeAll.th ≤ tsum n wM s.th :=
  tsum_le fun u _ => by rw [wakeAll_th]; split <;> simp_all [wM]

theorem resume_M {c : WCfg} {s : QW} {t : Nat} (ht : t < c.n) (hs : s.th t = .woken) (hi : s.init = true ∨ s.queue ≠ 0) :
    ∃ s', qwStep c s (.resume t) = some s' ∧ tsum c.n wM s'.th < tsum c.n wM s.th ∧ s'.init = s.init ∧
      (s.queue ≠ 0 → s'.queue < s.queue) := by
  refine ⟨s.look t, by simp only [qwStep]; rw [if_pos ⟨ht, hs⟩], ?_⟩
  have e1 := tsum_upd wM s.th .working ht
  have e2 := tsum_upd wM s.th .opening ht
  rw [hs] at e1 e2
  simp only [wM] at e1 e2
  unfold QW.look
  split
  · rename_i hq
    rcases hi with h | h
    · rw [hq.2] at h; cases h
    · exact absurd hq.1 h
  · split
    · rename_i hq
      refine ⟨by simp only; omega, rfl, fun h => absurd hq h⟩
    · simp only
      split
      · have := wakeAll_M { s with waiters := s.waiters - 1, queue := s.queue - 1, th := upd s.th t .opening } c.n
        simp only at this
        refine ⟨by omega, rfl, fun _ => by simp only [QW.wakeAll]; omega⟩
      · refine ⟨by simp only; omega, rfl, fun _ => by simp only; omega⟩

theorem notify_M {c : WCfg} {s : QW} {t k : Nat} (ht : t < c.n) (hs : s.th t = .notifying (k + 1)) :
    ∃ w s', qwStep c s (.notify t w) = some s' ∧ tsum c.n wM s'.th < tsum c.n wM s.th ∧ s'.init = s.init ∧ s'.queue = s.queue ∧
      ((∃ u < c.n, s.th u = .asleep) → ∃ u < c.n, s'.th u = .woken) := by
  by_cases hk : k + 1 ≥ c.n
  · refine ⟨none, { s.wakeAll with th := upd s.wakeAll.th t .working }, ?_, ?_, rfl, rfl, ?_⟩
    · simp only [qwStep, hs]
      rw [if_pos ht, if_pos hk]
    · have e1 := tsum_upd wM s.wakeAll.th .working ht
      have hk' : s.wakeAll.th t = .notifying (k + 1) := by rw [wakeAll_th, hs]; rfl
      rw [hk'] at e1
      have := wakeAll_M s c.n
      simp only [wM] at e1
      simp only
      omega
    · rintro ⟨u, hu, hu2⟩
      refine ⟨u, hu, ?_⟩
      have : u ≠ t := fun e => by rw [e, hs] at hu2; cases hu2
      simp only [upd, if_neg this]
      rw [wakeAll_th, if_pos hu2]
  · by_cases hA : ∃ u < c.n, s.th u = .asleep
    · obtain ⟨u, hu, hu2⟩ := hA
      have hne : u ≠ t := fun e => by rw [e, hs] at hu2; cases hu2
      refine ⟨some u, { s with th := upd (upd s.th u .woken) t (.notifying k) }, ?_, ?_, rfl, rfl, fun _ => ⟨u, hu, ?_⟩⟩
      · simp only [qwStep, hs]
        rw [if_pos ht, if_neg hk]
        simp only [QW.wakeOne]
        rw [if_pos ⟨hu, hu2⟩]
      · have e1 := tsum_upd wM (upd s.th u .woken) (.notifying k) ht
        have e2 := tsum_upd wM s.th .woken hu
        have ek : upd s.th u .woken t = .notifying (k + 1) := by simp only [upd, if_neg (Ne.symm hne), hs]
        rw [ek] at e1
        rw [hu2] at e2
        simp only [wM] at e1 e2
        simp only
        omega
      · simp only [upd, if_neg hne, if_true]
    · refine ⟨none, { s with th := upd s.th t (.notifying k) }, ?_, ?_, rfl, rfl, fun h => absurd h hA⟩
      · simp only [qwStep, hs]
        rw [if_pos ht, if_neg hk]
        simp only [QW.wakeOne]
        rw [if_pos (fun u hu he => hA ⟨u, hu, he⟩)]
      · have e1 := tsum_upd wM s.th (.notifying k) ht
        rw [hs] at e1
        simp only [wM] at e1
        simp only
        omega

theorem qwRun_append (c : WCfg) : ∀ (es es' : List QWEvent) (s s1 : QW), qwRun c s es = some s1 →
    qwRun c s (es ++ es') = qwRun c s1 es' := by
  intro es
  induction es with
  | nil => intro es' s s1 h; cases h; rfl
  | cons e es ih =>
    intro es' s s1 h
    simp only [qwRun] at h
    simp only [List.cons_append, qwRun]
    split at h
    · rename_i s2 h2; exact ih es' s2 s1 h
    · cases h

/-- Once nothing more will come, the threads that wait leave the queue, each with a block or with
the answer that there is none, and need nobody's help for that: not the discovery thread's, not
that of threads that are sending, not spurious wake-ups. -/
theorem C73_all_leave (c : WCfg) (es : List QWEvent) (s : QW) (h : qwRun c {} es = some s) (hi : s.init = true) :
    ∃ es' s', (∀ e ∈ es', e.own = true) ∧ qwRun c s es' = some s' ∧
      ∀ t < c.n, s'.th t ≠ .asleep ∧ s'.th t ≠ .woken := by
  generalize hm : tsum c.n wM s.th = m
  induction m using Nat.strongRecOn generalizing s es with
  | ind m ih =>
    by_cases hw : ∃ u < c.n, s.th u = .woken
    · obtain ⟨u, hu, hu2⟩ := hw
      obtain ⟨s1, h1, h2, h3, -⟩ := resume_M (c := c) hu hu2 (.inl hi)
      have hr : qwRun c {} (es ++ [.resume u]) = some s1 := by rw [qwRun_append c _ _ _ s h]; simp only [qwRun, h1]
      obtain ⟨es', s', a1, a2, a3⟩ := ih _ (by omega) _ s1 hr (h3.trans hi) rfl
      refine ⟨.resume u :: es', s', ?_, ?_, a3⟩
      · intro e he
        rcases List.mem_cons.1 he with rfl | he
        · rfl
        · exact a1 e he
      · simp only [qwRun, h1, a2]
    · by_cases ha : ∃ u < c.n, s.th u = .asleep
      · obtain ⟨t, ht, ht2⟩ := ha
        obtain ⟨u, hu, hu2⟩ := C73_not_forgotten c es s h t ht ht2 (.inr hi)
        rcases hu2 with hu2 | ⟨k, hu2⟩
        · exact absurd ⟨u, hu, hu2⟩ hw
        · obtain ⟨w, s1, h1, h2, h3, -, -⟩ := notify_M (c := c) hu hu2
          have hr : qwRun c {} (es ++ [.notify u w]) = some s1 := by rw [qwRun_append c _ _ _ s h]; simp only [qwRun, h1]
          obtain ⟨es', s', a1, a2, a3⟩ := ih _ (by omega) _ s1 hr (h3.trans hi) rfl
          refine ⟨.notify u w :: es', s', ?_, ?_, a3⟩
          · intro e he
            rcases List.mem_cons.1 he with rfl | he
            · rfl
            · exact a1 e he
          · simp only [qwRun, h1, a2]
      · exact ⟨[], s, (by intro e he; cases he), rfl, fun t ht => ⟨fun e => ha ⟨t, ht, e⟩, fun e => hw ⟨t, ht, e⟩⟩⟩

/-- Also before that: while a thread sleeps, a block in the queue is taken by threads that are
awake in the queue, or that are woken by one which has put blocks back. -/
theorem C73_block_is_taken (c : WCfg) (es : List QWEvent) (s : QW) (h : qwRun c {} es = some s) (t : Nat) (ht : t < c.n)
    (hs : s.th t = .asleep) (hq : s.queue ≠ 0) :
    ∃ es' s', (∀ e ∈ es', e.own = true) ∧ qwRun c s es' = some s' ∧ s'.queue < s.queue := by
  obtain ⟨u, hu, hu2⟩ := C73_not_forgotten c es s h t ht hs (.inl hq)
  rcases hu2 with hu2 | ⟨k, hu2⟩
  · obtain ⟨s1, h1, -, -, h4⟩ := resume_M (c := c) hu hu2 (.inr hq)
    exact ⟨[.resume u], s1, (by simp [QWEvent.own]), by simp only [qwRun, h1], h4 hq⟩
  · obtain ⟨w, s1, h1, -, -, h4, h5⟩ := notify_M (c := c) hu hu2
    obtain ⟨v, hv, hv2⟩ := h5 ⟨t, ht, hs⟩
    obtain ⟨s2, b1, -, -, b4⟩ := resume_M (c := c) hv hv2 (.inr (by rw [h4]; exact hq))
    refine ⟨[.notify u w, .resume v], s2, (by simp [QWEvent.own]), by simp only [qwRun, h1, b1], ?_⟩
    have := b4 (by rw [h4]; exact hq)
    omega

/-- Three threads; two sleep before there is a file.  The first file has one block, which thread
2 takes before the woken thread 0 gets the mutex; thread 2 puts it back, and discovery ends before
it has notified anybody. -/
def exSleep : List QWEvent :=
  [.start 0, .start 1, .start 2, .call 0, .call 1, .add 1 [some 0], .call 2, .resume 0, .opened 2 true, .giveBack 2 1,
   .close, .finish 0 []]

/-- It meets the hypotheses of the theorems of C73. -/
example : (qwRun { n := 3 } {} exSleep).map (fun s => (s.th 0, s.th 1, s.th 2, s.queue, s.init)) =
    some (.asleep, .asleep, .notifying 1, 1, true) := by decide +kernel

/-- And this is how everybody leaves. -/
example : (qwRun { n := 3 } {} (exSleep ++ [.notify 2 (some 1), .resume 1, .resume 0])).map
    (fun s => (s.th 0, s.th 1, s.th 2, s.queue, s.waiters)) = some (.working, .opening, .notifying 0, 0, 0) := by
  decide +kernel

/-! ### C74 -/

/-- When the generator is called, no block of an earlier batch is in the queue, and no thread is
opening or sending one. -/
theorem C74_batch_is_out (c : WCfg) (es : List QWEvent) (s : QW) (h : qwRun c {} es = some s) (hd : s.dir = .generate) :
    s.queue = 0 ∧ ∀ t < c.n, s.th t = .asleep ∨ s.th t = .woken ∨ s.th t = .ended :=
  ((QWInv.init c).run h).batch hd

/-- When every thread sleeps or has ended, the discovery thread goes on by itself. -/
theorem C74_next_is_asked_partial (c : WCfg) (es : List QWEvent) (s : QW) (h : qwRun c {} es = some s)
    (hd : s.dir = .count ∨ ∃ a, s.dir = .check a) (ht : ∀ t < c.n, s.th t = .asleep ∨ s.th t = .ended) :
    ∃ es' s', (∀ e ∈ es', e = .countThreads ∨ e = .look) ∧ qwRun c s es' = some s' ∧
      (s'.dir = .generate ∨ s'.dir = .closing) := by
  have hi := (QWInv.init c).run h
  have main : ∀ s : QW, QWInv c s → s.dir = .count → (∀ t < c.n, s.th t = .asleep ∨ s.th t = .ended) →
      ∃ s', qwRun c s [.countThreads, .look] = some s' ∧ (s'.dir = .generate ∨ s'.dir = .closing) := by
    intro s hi hd ht
    have hV : tsum c.n wV s.th = tsum c.n wR s.th := tsum_congr fun u hu => by
      rcases ht u hu with e | e <;> rw [e] <;> rfl
    have hc := hi.count
    by_cases hq : s.queue ≠ 0 ∨ s.waiters < ((s.running c.n : Nat) : Int)
    · have hrun : s.running c.n = 0 := by
        rw [running_eq] at hq ⊢
        rcases hq with hq | hq
        · by_cases hA : 0 < tsum c.n wA s.th
          · exfalso
            have h1 := hi.woken hA
            obtain ⟨u, hu, hu2⟩ := tsum_pos.1 (show 0 < tsum c.n wW s.th by omega)
            rcases ht u hu with e | e <;> rw [e] at hu2 <;> simp [wW] at hu2
          · have : tsum c.n wR s.th ≤ tsum c.n wA s.th := tsum_le fun u hu => by
              rcases ht u hu with e | e <;> rw [e] <;> simp [wR, wA]
            omega
        · omega
      refine ⟨{ s with dir := .closing }, ?_, .inr rfl⟩
      simp only [qwRun, qwStep, hd, if_true]
      rw [if_pos hq]
      have hr : QW.running { s with dir := .check (s.running c.n) } c.n = 0 := hrun
      simp only [hr, if_true]
    · refine ⟨{ s with dir := .generate }, ?_, .inl rfl⟩
      simp only [qwRun, qwStep, hd, if_true]
      rw [if_neg hq]
  rcases hd with hd | ⟨a, hd⟩
  · obtain ⟨s', h1, h2⟩ := main s hi hd ht
    exact ⟨_, s', by simp, h1, h2⟩
  · by_cases hq : s.queue ≠ 0 ∨ s.waiters < (a : Int)
    · by_cases hr : s.running c.n = 0
      · refine ⟨[.look], { s with dir := .closing }, by simp, ?_, .inr rfl⟩
        simp only [qwRun, qwStep, hd]
        rw [if_pos hq]
        simp only [hr, if_true]
      · have hs1 : qwStep c s .look = some { s with dir := .count } := by
          simp only [qwStep, hd]
          rw [if_pos hq]
          simp only [hr, if_false]
        obtain ⟨s', h1, h2⟩ := main { s with dir := .count } (hi.step hs1) rfl ht
        refine ⟨.look :: [.countThreads, .look], s', by simp, ?_, h2⟩
        rw [show qwRun c s (.look :: [.countThreads, .look]) = qwRun c { s with dir := .count } [.countThreads, .look] by
          simp only [qwRun, hs1]]
        exact h1
    · refine ⟨[.look], { s with dir := .generate }, by simp, ?_, .inl rfl⟩
      simp only [qwRun, qwStep, hd]
      rw [if_neg hq]

/-- Two threads and batches.  The first batch has one block: thread 0 sends it and both sleep. -/
def exBatch : List QWEvent :=
  [.start 0, .start 1, .next, .countThreads, .call 1, .call 0, .look, .generated true, .add 1 [some 0], .next, .resume 0,
   .countThreads, .opened 0 true, .look, .call 0, .countThreads]

example : (qwRun { n := 2, gen := true } {} exBatch).map (fun s => (s.th 0, s.th 1, s.dir)) =
    some (.asleep, .asleep, .check 2) := by decide +kernel

example : (qwRun { n := 2, gen := true } {} (exBatch ++ [.look])).map (fun s => s.dir) = some .generate := by decide +kernel

/-- Invariant of a sender that is stuck: thread 0 is in the barrier, thread 1 waits for a block. -/
structure Stuck (s : QW) : Prop where
  th0 : s.th 0 = .barrier
  th1 : s.th 1 = .asleep ∨ s.th 1 = .woken
  queue : s.queue = 0
  init : s.init = false
  count : s.waiters = 1
  dir : s.dir = .count ∨ s.dir = .check 2

theorem Stuck.step {s s' : QW} {e : QWEvent} (h : Stuck s) (hs : qwStep { n := 2, gen := true } s e = some s') : Stuck s' := by
  obtain ⟨h0, h1, hq, hi, hc, hd⟩ := h
  have hrun : s.running 2 = 2 := by
    rw [running_eq, tsum_succ, tsum_succ, h0]
    rcases h1 with e | e <;> rw [e] <;> rfl
  have tc : ∀ t : Nat, t < 2 → t = 0 ∨ t = 1 := by omega
  have hlook : ∀ t, t = 1 → Stuck (s.look t) := by
    rintro t rfl
    unfold QW.look
    rw [if_pos ⟨hq, hi⟩]
    exact ⟨by simp [upd, h0], .inl (by simp [upd]), hq, hi, hc, hd⟩
  cases e with
  | start t =>
    simp only [qwStep] at hs
    split at hs <;> cases hs
    rename_i hh
    rcases tc t hh.1 with rfl | rfl
    · rw [h0] at hh; cases hh.2.1
    · rcases h1 with e | e <;> rw [e] at hh <;> cases hh.2.1
  | call t =>
    simp only [qwStep] at hs
    split at hs <;> cases hs
    rename_i hh
    rcases tc t hh.1 with rfl | rfl
    · rw [h0] at hh; rcases hh.2 with e | e <;> cases e
    · rcases h1 with e | e <;> rw [e] at hh <;> rcases hh.2 with e | e <;> cases e
  | spurious t =>
    simp only [qwStep] at hs
    split at hs <;> cases hs
    rename_i hh
    rcases tc t hh.1 with rfl | rfl
    · rw [h0] at hh; cases hh.2
    · exact ⟨by simp [upd, h0], .inr (by simp [upd]), hq, hi, hc, hd⟩
  | resume t =>
    simp only [qwStep] at hs
    split at hs <;> cases hs
    rename_i hh
    rcases tc t hh.1 with rfl | rfl
    · rw [h0] at hh; cases hh.2
    · exact hlook 1 rfl
  | opened t ok =>
    simp only [qwStep] at hs
    split at hs <;> cases hs
    rename_i hh
    rcases tc t hh.1 with rfl | rfl
    · rw [h0] at hh; cases hh.2
    · rcases h1 with e | e <;> rw [e] at hh <;> cases hh.2
  | giveBack t k =>
    simp only [qwStep] at hs
    split at hs <;> cases hs
    rename_i hh
    rcases tc t hh.1 with rfl | rfl
    · rw [h0] at hh; cases hh.2
    · rcases h1 with e | e <;> rw [e] at hh <;> cases hh.2
  | notify t w =>
    simp only [qwStep] at hs
    split at hs
    · rename_i hk
      split at hs <;> cases hs
      rename_i hh
      rcases tc t hh.1 with rfl | rfl
      · rw [h0] at hk; cases hk
      · rcases h1 with e | e <;> rw [e] at hk <;> cases hk
    · rename_i hk
      split at hs
      · rename_i hh
        rcases tc t hh with rfl | rfl
        · rw [h0] at hk; cases hk
        · rcases h1 with e | e <;> rw [e] at hk <;> cases hk
      · cases hs
    · cases hs
  | enterBarrier t =>
    simp only [qwStep] at hs
    split at hs <;> cases hs
    rename_i hh
    rcases tc t hh.1 with rfl | rfl
    · rw [h0] at hh; cases hh.2
    · rcases h1 with e | e <;> rw [e] at hh <;> cases hh.2
  | leaveBarrier =>
    simp only [qwStep] at hs
    split at hs
    · rename_i hh
      exfalso
      rcases hh 1 (by decide) with e | e <;> rcases h1 with e' | e' <;> rw [e'] at e <;> cases e
    · cases hs
  | exit t =>
    simp only [qwStep] at hs
    split at hs <;> cases hs
    rename_i hh
    rcases tc t hh.1 with rfl | rfl
    · rw [h0] at hh; cases hh.2
    · rcases h1 with e | e <;> rw [e] at hh <;> cases hh.2
  | add k ws =>
    simp only [qwStep] at hs
    split at hs
    · rename_i hh; rcases hd with e | e <;> rw [e] at hh <;> cases hh
    · cases hs
  | rebuild t k ws =>
    simp only [qwStep] at hs
    split at hs
    · rename_i hh
      exfalso
      have := hh.2.2 1 (by decide)
      rcases h1 with e | e <;> rw [e] at this <;> simp at this
    · cases hs
  | next =>
    simp only [qwStep] at hs
    split at hs
    · rename_i hh; rcases hd with e | e <;> rw [e] at hh <;> cases hh.1
    · cases hs
  | countThreads =>
    simp only [qwStep] at hs
    split at hs <;> cases hs
    exact ⟨h0, h1, hq, hi, hc, .inr (by simp only [hrun])⟩
  | look =>
    simp only [qwStep] at hs
    split at hs
    · rename_i a ha
      have : a = 2 := by
        rcases hd with e | e <;> rw [e] at ha <;> cases ha
        rfl
      subst this
      rw [if_pos (.inr (by omega))] at hs
      cases hs
      exact ⟨h0, h1, hq, hi, hc, .inl (by simp only [hrun]; rfl)⟩
    · cases hs
  | generated more =>
    simp only [qwStep] at hs
    split at hs
    · rename_i hh; rcases hd with e | e <;> rw [e] at hh <;> cases hh
    · cases hs
  | close =>
    simp only [qwStep] at hs
    split at hs
    · rename_i hh; rcases hd with e | e <;> rw [e] at hh <;> cases hh
    · cases hs
  | finish d ws =>
    simp only [qwStep] at hs
    split at hs
    · rename_i hh; rcases hd with e | e <;> rw [e] at hh <;> cases hh
    · cases hs

/-- The first batch is one block.  Thread 0 sends it, and is told of a version mismatch while thread 1
sleeps. -/
def exMismatch : List QWEvent :=
  [.start 0, .start 1, .next, .countThreads, .call 1, .call 0, .look, .generated true, .add 1 [some 0], .next, .resume 0,
   .opened 0 true, .enterBarrier 0]

/-- Then nothing ever happens again: thread 0 waits in the barrier for thread 1, thread 1 for a
block or the end of discovery, discovery for thread 0. -/
theorem C74_violated_mismatch : ∃ s, qwRun { n := 2, gen := true } {} exMismatch = some s ∧
    ∀ es s', qwRun { n := 2, gen := true } s es = some s' →
      s'.th 0 = .barrier ∧ (s'.th 1 = .asleep ∨ s'.th 1 = .woken) ∧ s'.dir ≠ .generate ∧ s'.dir ≠ .done := by
  have h : (match qwRun { n := 2, gen := true } {} exMismatch with
      | some s => decide (s.th 0 = .barrier ∧ s.th 1 = .asleep ∧ s.queue = 0 ∧ s.init = false ∧ s.waiters = 1 ∧ s.dir = .count)
      | none => false) = true := by decide +kernel
  split at h
  · rename_i s hs
    obtain ⟨a1, a2, a3, a4, a5, a6⟩ := of_decide_eq_true h
    refine ⟨s, hs, ?_⟩
    have hst : Stuck s := ⟨a1, .inl a2, a3, a4, a5, .inl a6⟩
    have all : ∀ (es : List QWEvent) (s s' : QW), Stuck s → qwRun { n := 2, gen := true } s es = some s' → Stuck s' := by
      intro es
      induction es with
      | nil => intro s s' h hs; cases hs; exact h
      | cons e es ih =>
        intro s s' h hs
        simp only [qwRun] at hs
        split at hs
        · rename_i s1 h1; exact ih s1 s' (h.step h1) hs
        · cases hs
    intro es s' hs'
    have := all es s s' hst hs'
    refine ⟨this.th0, this.th1, ?_, ?_⟩ <;> rcases this.dir with e | e <;> rw [e] <;> decide
  · cases h

/-- With `two_phases` and a generator no thread is ever started and the generator is never called,
whatever the number of threads: discovery waits for threads that are started only when it is done.
(Unless reading the list of files given with the request fails, `close` and `finish`.) -/
theorem C74_violated_two_phases (n : Nat) (hn : 0 < n) (es : List QWEvent) (s : QW)
    (h : qwRun { n := n, gen := true, two := true } {} es = some s) (hf : QWEvent.close ∉ es) :
    (∀ t < n, s.th t = .fresh) ∧ s.dir ≠ .generate ∧ s.dir ≠ .done := by
  have key : ∀ (es : List QWEvent) (s s' : QW), QWInv { n := n, gen := true, two := true } s →
      ((∀ t < n, s.th t = .fresh) ∧ (s.dir = .adding ∨ s.dir = .count ∨ ∃ a, s.dir = .check a)) →
      qwRun { n := n, gen := true, two := true } s es = some s' → QWEvent.close ∉ es →
      (∀ t < n, s'.th t = .fresh) ∧ (s'.dir = .adding ∨ s'.dir = .count ∨ ∃ a, s'.dir = .check a) := by
    intro es
    induction es with
    | nil => intro s s' _ h hs _; cases hs; exact h
    | cons e es ih =>
      intro s s' hinv h hs hf
      simp only [qwRun] at hs
      split at hs
      · rename_i s1 h1
        refine ih s1 s' (hinv.step h1) ?_ hs (fun hh => hf (List.mem_cons_of_mem _ hh))
        obtain ⟨hfr, hd⟩ := h
        have noth : ∀ {t : Nat} {p : QPh}, t < n → s.th t = p → p ≠ .fresh → False := fun ht he hp => hp (he ▸ hfr _ ht)
        have hnd : s.dir ≠ .done := by rcases hd with e | e | ⟨a, e⟩ <;> rw [e] <;> simp
        have wk : ∀ th' : Nat → QPh, Wakes n s.th th' → ∀ t < n, th' t = .fresh := by
          intro th' hw t ht
          rcases hw.each t with e | ⟨e, -⟩
          · rw [e]; exact hfr t ht
          · exact (noth ht e (by decide)).elim
        cases e with
        | start t =>
          simp only [qwStep] at h1
          split at h1 <;> cases h1
          rename_i hh
          exact absurd (hh.2.2 trivial) hnd
        | call t =>
          simp only [qwStep] at h1
          split at h1 <;> cases h1
          rename_i hh
          rcases hh.2 with e | e <;> exact (noth hh.1 e (by decide)).elim
        | spurious t =>
          simp only [qwStep] at h1
          split at h1 <;> cases h1
          rename_i hh; exact (noth hh.1 hh.2 (by decide)).elim
        | resume t =>
          simp only [qwStep] at h1
          split at h1 <;> cases h1
          rename_i hh; exact (noth hh.1 hh.2 (by decide)).elim
        | opened t ok =>
          simp only [qwStep] at h1
          split at h1 <;> cases h1
          rename_i hh; exact (noth hh.1 hh.2 (by decide)).elim
        | giveBack t k =>
          simp only [qwStep] at h1
          split at h1 <;> cases h1
          rename_i hh; exact (noth hh.1 hh.2 (by decide)).elim
        | notify t w =>
          simp only [qwStep] at h1
          split at h1
          · rename_i hk
            split at h1 <;> cases h1
            rename_i hh; exact (noth hh.1 hk (by decide)).elim
          · rename_i hk
            split at h1
            · rename_i hh; exact (noth hh hk (by simp)).elim
            · cases h1
          · cases h1
        | enterBarrier t =>
          simp only [qwStep] at h1
          split at h1 <;> cases h1
          rename_i hh; exact (noth hh.1 hh.2 (by decide)).elim
        | leaveBarrier =>
          simp only [qwStep] at h1
          split at h1
          · rename_i hh
            rcases hh 0 hn with e | e <;> exact (noth hn e (by decide)).elim
          · cases h1
        | exit t =>
          simp only [qwStep] at h1
          split at h1 <;> cases h1
          rename_i hh; exact (noth hh.1 hh.2 (by decide)).elim
        | add k ws =>
          simp only [qwStep] at h1
          split at h1
          · obtain ⟨a1, a2, -, -⟩ := smartNotify_spec h1
            rw [a1]
            exact ⟨wk _ a2, hd⟩
          · cases h1
        | rebuild t k ws =>
          simp only [qwStep] at h1
          split at h1
          · rename_i hh; exact (noth hh.1 hh.2.1 (by decide)).elim
          · cases h1
        | next =>
          simp only [qwStep] at h1
          split at h1 <;> cases h1
          exact ⟨hfr, .inr (.inl rfl)⟩
        | countThreads =>
          simp only [qwStep] at h1
          split at h1 <;> cases h1
          exact ⟨hfr, .inr (.inr ⟨_, rfl⟩)⟩
        | look =>
          simp only [qwStep] at h1
          have hrun : tsum n wR s.th ≠ 0 := by
            have : 0 < tsum n wR s.th := tsum_pos.2 ⟨0, hn, by rw [hfr 0 hn]; decide⟩
            omega
          have hV : tsum n wV s.th = 0 := by
            have : ¬ 0 < tsum n wV s.th := by
              rw [tsum_pos]
              rintro ⟨u, hu, hu2⟩
              rw [hfr u hu] at hu2; simp [wV] at hu2
            omega
          split at h1
          · rename_i a ha
            have h5 := hinv.check a ha
            have h3 := hinv.count
            simp only at h5 h3
            rw [if_pos (.inr (by omega))] at h1
            cases h1
            refine ⟨hfr, .inr (.inl ?_)⟩
            simp only [running_eq]
            rw [if_neg hrun]
          · cases h1
        | generated more =>
          simp only [qwStep] at h1
          split at h1
          · rename_i hh; rcases hd with e | e | ⟨a, e⟩ <;> rw [e] at hh <;> cases hh
          · cases h1
        | close => exact absurd List.mem_cons_self hf
        | finish d ws =>
          simp only [qwStep] at h1
          split at h1
          · rename_i hh; rcases hd with e | e | ⟨a, e⟩ <;> rw [e] at hh <;> cases hh
          · cases h1
      · cases hs
  obtain ⟨a1, a2⟩ := key es {} s (QWInv.init _) ⟨fun _ _ => rfl, .inl rfl⟩ h hf
  refine ⟨a1, ?_, ?_⟩ <;> rcases a2 with e | e | ⟨a, e⟩ <;> rw [e] <;> simp

/-- An execution of that kind. -/
example : (qwRun { n := 2, gen := true, two := true } {} [.add 3 [], .next, .countThreads, .look, .countThreads]).map
    (fun s => (s.th 0, s.queue, s.dir)) = some (.fresh, 3, .check 2) := by decide +kernel

end Wdt
