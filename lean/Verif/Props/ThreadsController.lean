import Verif.Model.ThreadsController
import Mathlib.Tactic.ByContra
import Mathlib.Tactic.Tauto
/-
C30 (funnel), C31 (barrier), C32 (run-once hooks).
-/
namespace Wdt

theorem upd_self {α : Type} (f : Nat → α) (t : Nat) (a : α) : upd f t a t = a := by simp [upd]

theorem upd_ne {α : Type} (f : Nat → α) {t u : Nat} (a : α) (h : u ≠ t) : upd f t a u = f u := by
  simp [upd, h]

/-! ### C30 -/

/-- Invariant of a funnel. -/
structure FunInv (s : FunSys) : Prop where
  inside : ∀ t, s.th t = .inside → s.status = .progress
  one : ∀ t u, s.th t = .inside → s.th u = .inside → t = u
  busy : s.status = .progress → ∃ t, s.th t = .inside
  awake : s.status = .stop → ∀ t, s.th t ≠ .asleep
  retry : s.status = .start → ∀ t, s.th t = .asleep → ∃ u, s.th u = .retry

theorem FunInv.init : FunInv {} := by
  constructor <;> simp

theorem FunInv.step {s s' : FunSys} {e : FunEvent} (h : FunInv s) (hn : e.notifies s)
    (hs : funStep s e = some s') : FunInv s' := by
  obtain ⟨h1, h2, h3, h4, h5⟩ := h
  obtain ⟨status, th⟩ := s
  simp only at h1 h2 h3 h4 h5
  cases e with
  | ask t =>
    simp only [funStep] at hs
    split at hs
    · cases status <;> simp only at hs <;> cases hs <;> constructor <;> simp only [upd] <;> grind
    · cases hs
  | wait t =>
    simp only [funStep] at hs
    split at hs
    · split at hs <;> cases hs <;> constructor <;> simp only [upd] <;> grind
    · cases hs
  | wake t =>
    simp only [funStep] at hs
    split at hs
    · cases hs; constructor <;> simp only [upd] <;> grind
    · cases hs
  | success t =>
    simp only [funStep] at hs
    split at hs
    · cases hs; constructor <;> simp only <;> grind
    · cases hs
  | fail t w =>
    simp only [funStep] at hs
    split at hs
    · cases w with
      | none => simp only [FunEvent.notifies] at hn; cases hs; constructor <;> simp only [upd] <;> grind
      | some x =>
        simp only at hs
        split at hs
        · cases hs; constructor <;> simp only [upd] <;> grind
        · cases hs
    · cases hs
  | giveUp t =>
    simp only [funStep] at hs
    split at hs
    · cases hs; constructor <;> simp only [upd] <;> grind
    · cases hs

theorem FunRun.inv {es : List FunEvent} {s : FunSys} (h : FunRun es s) : FunInv s := by
  induction h with
  | nil => exact FunInv.init
  | snoc _ hn hs ih => exact ih.step hn hs

/-- **C30**: at most one thread is inside the section. -/
theorem C30_one_inside {es : List FunEvent} {s : FunSys} (h : FunRun es s) {t u : Nat}
    (ht : s.th t = .inside) (hu : s.th u = .inside) : t = u :=
  h.inv.one t u ht hu

/-- Once the section succeeded the status does not change. -/
theorem funStep_stop {s s' : FunSys} {e : FunEvent} (h : FunInv s) (hs : funStep s e = some s')
    (hst : s.status = .stop) : s'.status = .stop := by
  obtain ⟨h1, _, _, _, _⟩ := h
  obtain ⟨status, th⟩ := s
  simp only at h1 hst
  subst hst
  cases e with
  | fail t w => simp only [funStep] at hs; grind
  | _ => simp only [funStep] at hs; grind

/-- **C30**: the section succeeds at most once, and nobody is inside afterwards: in every
execution, after a success no thread is ever told to enter again. -/
theorem C30_nothing_after_success {es₁ es₂ : List FunEvent} {t : Nat} {s : FunSys}
    (h : FunRun (es₁ ++ .success t :: es₂) s) :
    s.status = .stop ∧ (∀ u, s.th u ≠ .inside) ∧ (∀ u, s.th u ≠ .asleep) ∧
      (∀ u, .success u ∉ es₂) ∧ (∀ u w, .fail u w ∉ es₂) := by
  generalize hes : es₁ ++ .success t :: es₂ = es at h
  induction h generalizing es₂ with
  | nil => simp at hes
  | @snoc s1 s2 es e hr hn hs ih =>
    have hinv1 : FunInv s1 := hr.inv
    have hinv2 : FunInv s2 := hinv1.step hn hs
    have hfin : s2.status = .stop → (∀ u, s2.th u ≠ .inside) ∧ (∀ u, s2.th u ≠ .asleep) := by
      intro hst
      refine ⟨fun u hu => ?_, hinv2.awake hst⟩
      have := hinv2.inside u hu
      rw [hst] at this; cases this
    rcases List.eq_nil_or_concat es₂ with rfl | ⟨es₂', e', rfl⟩
    · have he : FunEvent.success t = e := by
        have := congrArg List.getLast? hes
        simpa using this
      subst he
      have hst : s2.status = .stop := by
        simp only [funStep] at hs
        split at hs
        · cases hs; rfl
        · cases hs
      exact ⟨hst, (hfin hst).1, (hfin hst).2, by simp, by simp⟩
    · have hes' : (es₁ ++ .success t :: es₂') ++ [e'] = es ++ [e] := by
        rw [← hes]; simp
      have h2 := List.append_inj' hes' rfl
      obtain ⟨he1, he2⟩ := h2
      simp only [List.cons.injEq, and_true] at he2
      subst he2
      obtain ⟨hst, hins, hasl, hsu, hfa⟩ := ih he1
      have hst2 := funStep_stop hinv1 hs hst
      refine ⟨hst2, (hfin hst2).1, (hfin hst2).2, ?_, ?_⟩
      · intro u hu
        simp only [List.concat_eq_append, List.mem_append, List.mem_singleton] at hu
        rcases hu with hu | hu
        · exact hsu u hu
        · subst hu
          simp only [funStep] at hs
          split at hs
          · exact hins u (by assumption)
          · cases hs
      · intro u w hu
        simp only [List.concat_eq_append, List.mem_append, List.mem_singleton] at hu
        rcases hu with hu | hu
        · exact hfa u w hu
        · subst hu
          simp only [funStep] at hs
          split at hs
          · exact hins u (by assumption)
          · cases hs

/-- **C30**: a thread never sleeps at the funnel unless another thread is inside, or awake and
about to ask again (and then it is let in or finds somebody inside): no wake-up is lost. -/
theorem C30_no_lost_wakeup {es : List FunEvent} {s : FunSys} (h : FunRun es s) {t : Nat}
    (ht : s.th t = .asleep) :
    (∃ u, u ≠ t ∧ s.th u = .inside) ∨ (∃ u, u ≠ t ∧ s.th u = .retry ∧ s.status = .start) := by
  have hi := h.inv
  cases hst : s.status with
  | progress =>
    obtain ⟨u, hu⟩ := hi.busy hst
    exact .inl ⟨u, (fun hc => by subst hc; rw [ht] at hu; cases hu), hu⟩
  | start =>
    obtain ⟨u, hu⟩ := hi.retry hst t ht
    exact .inr ⟨u, (fun hc => by subst hc; rw [ht] at hu; cases hu), hu, rfl⟩
  | stop => exact absurd ht (hi.awake hst t)

/-- **C30**: after a failure the next thread that asks, whichever it is, is let in; the ones
asking after it are not. -/
theorem C30_reenter_after_failure {es : List FunEvent} {s s1 : FunSys} {t u v : Nat} {w : Option Nat}
    (_h : FunRun es s) (hf : funStep s (.fail t w) = some s1)
    (hu : s1.th u = .idle ∨ s1.th u = .retry) (huv : u ≠ v) (hv : s1.th v = .idle ∨ s1.th v = .retry) :
    ∃ s2 s3, funStep s1 (.ask u) = some s2 ∧ s2.th u = .inside ∧
      funStep s2 (.ask v) = some s3 ∧ s3.th v = .saw := by
  have hst : s1.status = .start := by
    simp only [funStep] at hf
    grind
  refine ⟨⟨.progress, upd s1.th u .inside⟩, ⟨.progress, upd (upd s1.th u .inside) v .saw⟩, ?_, ?_, ?_, ?_⟩
  · simp [funStep, hu, hst]
  · simp [upd]
  · simp only [funStep]
    rw [if_pos (by simp only [upd, if_neg (Ne.symm huv)]; exact hv)]
  · simp [upd]

/-- Three threads: 0 enters and fails while 1 and 2 sleep; 1 is woken, enters and succeeds. -/
example : ∃ s, FunRun [.ask 0, .ask 1, .ask 2, .wait 1, .wait 2, .fail 0 (some 1), .ask 1, .success 1] s ∧
    s.th 1 = .done ∧ s.th 2 = .retry := by
  have h := FunRun.nil
  have h := FunRun.snoc (e := .ask 0) h trivial rfl
  have h := FunRun.snoc (e := .ask 1) h trivial rfl
  have h := FunRun.snoc (e := .ask 2) h trivial rfl
  have h := FunRun.snoc (e := .wait 1) h trivial rfl
  have h := FunRun.snoc (e := .wait 2) h trivial rfl
  have h := FunRun.snoc (e := .fail 0 (some 1)) h trivial rfl
  have h := FunRun.snoc (e := .ask 1) h trivial rfl
  have h := FunRun.snoc (e := .success 1) h trivial rfl
  exact ⟨_, h, rfl, rfl⟩

/-! ### C31 -/

/-- Number of threads below `n` satisfying `p`. -/
def cnt (n : Nat) (p : Nat → Bool) : Nat := (List.range n).countP p

theorem cnt_le (n : Nat) (p : Nat → Bool) : cnt n p ≤ n := by
  have := List.countP_le_length (p := p) (l := List.range n)
  simpa [cnt] using this

/-- Changing one thread changes a count by the difference at that thread. -/
theorem cnt_upd {α : Type} (n : Nat) (f : Nat → α) (t : Nat) (a : α) (p : α → Bool) (ht : t < n) :
    cnt n (fun u => p (upd f t a u)) + (if p (f t) then 1 else 0) =
      cnt n (fun u => p (f u)) + (if p a then 1 else 0) := by
  induction n with
  | zero => omega
  | succ n ih =>
    have e1 : ∀ g : Nat → Bool, cnt (n + 1) g = cnt n g + (if g n then 1 else 0) := by
      intro g
      simp only [cnt, List.range_succ, List.countP_append, List.countP_singleton]
    rw [e1, e1]
    by_cases h : t = n
    · subst h
      have e2 : cnt t (fun u => p (upd f t a u)) = cnt t (fun u => p (f u)) := by
        simp only [cnt]
        apply List.countP_congr
        intro x hx
        rw [upd_ne f a (by have := List.mem_range.mp hx; omega)]
      rw [e2, upd_self]; omega
    · have := ih (by omega)
      rw [upd_ne f a (fun hc => h hc.symm)]; omega

theorem cnt_pos {n : Nat} {p : Nat → Bool} {t : Nat} (ht : t < n) (h : p t = true) : 0 < cnt n p := by
  simp only [cnt, List.countP_pos_iff]
  exact ⟨t, List.mem_range.mpr ht, h⟩

theorem cnt_zero {n : Nat} {p : Nat → Bool} (h : ∀ t, t < n → p t = false) : cnt n p = 0 := by
  simp only [cnt, List.countP_eq_zero]
  intro x hx
  simp [h x (List.mem_range.mp hx)]

theorem cnt_zero_iff {n : Nat} {p : Nat → Bool} : cnt n p = 0 ↔ ∀ t, t < n → p t = false := by
  constructor
  · intro h t ht
    cases hp : p t with
    | false => rfl
    | true => have := cnt_pos ht hp; omega
  · exact cnt_zero

/-- Threads the barrier still waits for. -/
def isAhead (l : BLoc) : Bool := l == .running || l == .gone

/-- Invariant of a barrier: as long as it is closed, the number of threads it waits for is
its number of threads minus its hits, and nobody passed; once open, nobody is ahead. -/
structure BarInv (n : Nat) (s : BarSys) : Prop where
  ahead : s.complete = false → (cnt n (fun u => isAhead (s.th u)) : Int) = s.numThreads - s.hits
  closed : s.complete = false → (n = 0 ∨ 0 < cnt n (fun u => isAhead (s.th u))) ∧ ∀ t, s.th t ≠ .passed
  opened : s.complete = true → ∀ t, t < n → s.th t ≠ .running ∧ s.th t ≠ .gone

theorem cnt_true (n : Nat) : cnt n (fun _ => true) = n := by
  simp [cnt]

theorem cnt_full {n : Nat} {p : Nat → Bool} (h : n ≤ cnt n p) : ∀ t, t < n → p t = true := by
  intro t ht
  have h1 : (List.range n).countP p = (List.range n).length := by
    have := cnt_le n p; simp only [cnt] at h this; simp; omega
  exact List.countP_eq_length.mp h1 t (List.mem_range.mpr ht)

theorem BarInv.init (n : Nat) : BarInv n (.init n) := by
  refine ⟨fun _ => ?_, fun _ => ⟨?_, ?_⟩, fun h => ?_⟩
  · simp [BarSys.init, isAhead, cnt_true]
  · simp only [BarSys.init, isAhead, beq_self_eq_true, Bool.true_or, cnt_true]; omega
  · simp [BarSys.init]
  · simp [BarSys.init] at h

theorem BarInv.step {n : Nat} {s s' : BarSys} {e : BarEvent} (h : BarInv n s) (hs : barStep n s e = .ok s') :
    BarInv n s' := by
  obtain ⟨h1, h2, h3⟩ := h
  obtain ⟨hits, num, complete, th⟩ := s
  simp only at h1 h2 h3
  cases e with
  | hit t =>
    simp only [barStep] at hs
    split at hs
    · rename_i ht
      cases complete with
      | true => simp at hs
      | false =>
        have hc := fun a => cnt_upd n th t a isAhead ht.1
        have h1 := h1 rfl
        have h2 := h2 rfl
        simp only [Bool.false_eq_true, ↓reduceIte, barCheck] at hs
        split at hs
        · cases hs
        · rename_i hx
          have hx' : (hits + 1 = num) := by
            split at hx
            · cases hx
            · split at hx
              · assumption
              · cases hx
          cases hs
          have := hc .passed
          rw [ht.2] at this
          simp only [isAhead, beq_self_eq_true, Bool.true_or, ↓reduceIte] at this h1
          refine ⟨by simp, by simp, fun _ u hu => ?_⟩
          have hz : cnt n (fun u => isAhead (upd th t .passed u)) = 0 := by
            simp only [isAhead]
            simp (config := { decide := true }) only [↓reduceIte] at this
            omega
          have := (cnt_zero_iff.mp hz) u hu
          simp only [isAhead, Bool.or_eq_false_iff, beq_eq_false_iff_ne] at this
          exact this
        · rename_i hx
          have hx' : ¬ (hits + 1 = num) ∧ ¬ num < hits + 1 := by
            split at hx
            · cases hx
            · split at hx
              · cases hx
              · exact ⟨by assumption, by assumption⟩
          cases hs
          have := hc .waiting
          rw [ht.2] at this
          simp only [isAhead, beq_self_eq_true, Bool.true_or, ↓reduceIte] at this h1
          simp (config := { decide := true }) only [↓reduceIte] at this
          refine ⟨fun _ => ?_, fun _ => ⟨?_, fun u => ?_⟩, by simp⟩
          · simp only [isAhead]; omega
          · simp only [isAhead]; omega
          · simp only [upd]; split
            · simp
            · exact h2.2 u
    · cases hs
  | wake t =>
    simp only [barStep] at hs
    split at hs
    · rename_i ht
      split at hs
      · rename_i hc
        cases hs
        refine ⟨by simp [hc], by simp [hc], fun _ u hu => ?_⟩
        simp only [upd]; split
        · simp
        · exact h3 hc u hu
      · cases hs; exact ⟨h1, h2, h3⟩
    · cases hs
  | leave t =>
    simp only [barStep] at hs
    split at hs
    · rename_i ht
      split at hs
      · rename_i hc
        cases hs
        refine ⟨by simp [hc], by simp [hc], fun _ u hu => ?_⟩
        simp only [upd]; split
        · simp
        · exact h3 hc u hu
      · rename_i hcf
        have hcf : complete = false := by simpa using hcf
        subst hcf
        have h1 := h1 rfl
        have h2 := h2 rfl
        have htr : th t = .running := by
          rcases ht.2 with h | h
          · exact h
          · exact absurd h (h2.2 t)
        have hc := cnt_upd n th t .left isAhead ht.1
        rw [htr] at hc
        simp only [isAhead, beq_self_eq_true, Bool.true_or, ↓reduceIte] at hc h1
        simp (config := { decide := true }) only [↓reduceIte] at hc
        simp only [barCheck] at hs
        split at hs
        · cases hs
        · rename_i c hx
          cases hs
          split at hx
          · cases hx
          · split at hx
            · cases hx
              refine ⟨by simp, by simp, fun _ u hu => ?_⟩
              have hz : cnt n (fun u => isAhead (upd th t .left u)) = 0 := by
                simp only [isAhead]; omega
              have := (cnt_zero_iff.mp hz) u hu
              simp only [isAhead, Bool.or_eq_false_iff, beq_eq_false_iff_ne] at this
              exact this
            · cases hx
              refine ⟨fun _ => ?_, fun _ => ⟨?_, fun u => ?_⟩, by simp⟩
              · simp only [isAhead]; omega
              · simp only [isAhead]; omega
              · simp only [upd]; split
                · simp
                · exact h2.2 u
    · cases hs
  | vanish t =>
    simp only [barStep] at hs
    split at hs
    · rename_i ht
      cases hs
      have hc := cnt_upd n th t .gone isAhead ht.1
      rw [ht.2] at hc
      simp only [isAhead, beq_self_eq_true, Bool.true_or, Bool.or_true, ↓reduceIte] at hc
      refine ⟨fun h => ?_, fun h => ⟨?_, fun u => ?_⟩, fun h => ?_⟩
      · have := h1 h
        simp only [isAhead] at this ⊢
        omega
      · have := (h2 h).1
        simp only [isAhead] at this ⊢
        omega
      · simp only [upd]; split
        · simp
        · exact (h2 h).2 u
      · exact absurd ht.2 (h3 h t ht.1).1
    · cases hs

theorem BarInv.run {n : Nat} {es : List BarEvent} {s s' : BarSys} (h : BarInv n s)
    (hs : barRun n s es = .ok s') : BarInv n s' := by
  induction es generalizing s with
  | nil => simp only [barRun] at hs; cases hs; exact h
  | cons e es ih =>
    simp only [barRun] at hs
    split at hs
    · rename_i h1; exact ih (h.step h1) hs
    · cases hs
    · cases hs

/-- **C31**: no thread passes the barrier before every other thread reached it or left. -/
theorem C31_no_early_pass {n : Nat} {es : List BarEvent} {s : BarSys} (h : barRun n (.init n) es = .ok s)
    {t : Nat} (ht : s.th t = .passed) {u : Nat} (hu : u < n) : s.th u ≠ .running ∧ s.th u ≠ .gone := by
  have hi := (BarInv.init n).run h
  cases hc : s.complete with
  | true => exact hi.opened hc u hu
  | false => exact absurd ht ((hi.closed hc).2 t)

/-- **C31**: the checks in the barrier never fail. -/
theorem C31_no_crash {n : Nat} {es : List BarEvent} {f : Fault} : barRun n (.init n) es ≠ .fault f := by
  have main : ∀ (es : List BarEvent) (s : BarSys), BarInv n s → barRun n s es ≠ .fault f := by
    intro es
    induction es with
    | nil => intro s _ h; simp [barRun] at h
    | cons e es ih =>
      intro s hi h
      simp only [barRun] at h
      split at h
      · rename_i h1; exact ih _ (hi.step h1) h
      · rename_i g h1
        obtain ⟨hits, num, complete, th⟩ := s
        obtain ⟨i1, i2, i3⟩ := hi
        simp only at i1 i2 i3
        cases e with
        | hit t =>
          simp only [barStep] at h1
          split at h1
          · rename_i ht
            cases complete with
            | true => exact (i3 rfl t ht.1).1 ht.2
            | false =>
              have i1 := i1 rfl
              have hp : 0 < cnt n (fun u => isAhead (th u)) := cnt_pos ht.1 (by rw [ht.2]; rfl)
              simp only [Bool.false_eq_true, ↓reduceIte, barCheck] at h1
              split at h1
              · rename_i hx
                split at hx
                · omega
                · split at hx <;> cases hx
              · cases h1
              · cases h1
          · cases h1
        | wake t => simp only [barStep] at h1; split at h1 <;> (try split at h1) <;> cases h1
        | leave t =>
          simp only [barStep] at h1
          split at h1
          · rename_i ht
            cases complete with
            | true => simp at h1
            | false =>
              have i1 := i1 rfl
              have htr : th t = .running := by
                rcases ht.2 with h | h
                · exact h
                · exact absurd h ((i2 rfl).2 t)
              have hp : 0 < cnt n (fun u => isAhead (th u)) := cnt_pos ht.1 (by rw [htr]; rfl)
              simp only [Bool.false_eq_true, ↓reduceIte, barCheck] at h1
              split at h1
              · rename_i hx
                split at hx
                · omega
                · split at hx <;> cases hx
              · cases h1
          · cases h1
        | vanish t => simp only [barStep] at h1; split at h1 <;> cases h1
      · cases h
  exact main es _ (BarInv.init n)

/-- **C31** (partial: excludes threads that end without leaving, see
`C31_vanished_thread_blocks`): once every thread reached the barrier or left, the barrier is
open and every thread still waiting passes when it is scheduled. -/
theorem C31_released_partial {n : Nat} {es : List BarEvent} {s : BarSys} (h : barRun n (.init n) es = .ok s)
    (hall : ∀ u, u < n → s.th u ≠ .running ∧ s.th u ≠ .gone) {t : Nat} (htn : t < n) (ht : s.th t = .waiting) :
    ∃ s', barStep n s (.wake t) = .ok s' ∧ s'.th t = .passed := by
  have hi := (BarInv.init n).run h
  have hc : s.complete = true := by
    cases hc : s.complete with
    | true => rfl
    | false =>
      have := (hi.closed hc).1
      have hz : cnt n (fun u => isAhead (s.th u)) = 0 := cnt_zero fun u hu => by
        simp only [isAhead, Bool.or_eq_false_iff, beq_eq_false_iff_ne]; exact hall u hu
      omega
  refine ⟨⟨s.hits, s.numThreads, s.complete, upd s.th t .passed⟩, ?_, upd_self ..⟩
  simp only [barStep]; rw [if_pos ⟨htn, ht⟩, if_pos hc]

/-- A thread whose `start` returns early, because its buffer could not be allocated
(SenderThread.cpp:957-961), never leaves the barrier: the others wait for ever. -/
theorem C31_vanished_thread_blocks {n : Nat} {es : List BarEvent} {s : BarSys} {v t : Nat} (hv : v < n)
    (h : barRun n (.init n) es = .ok s) (hgone : s.th v = .gone) (ht : s.th t = .waiting) :
    s.complete = false ∧ ∀ s', barStep n s (.wake t) = .ok s' → s'.th t = .waiting := by
  have hi := (BarInv.init n).run h
  have hc : s.complete = false := by
    cases hc : s.complete with
    | false => rfl
    | true => exact absurd hgone (hi.opened hc v hv).2
  refine ⟨hc, fun s' hs => ?_⟩
  simp only [barStep] at hs
  split at hs
  · rw [hc] at hs; simp at hs; subst hs; exact ht
  · cases hs

/-- Three threads: one leaves, two wait for each other. -/
example : ∃ s, barRun 3 (.init 3) [.hit 0, .leave 1, .hit 2, .wake 0, .leave 2] = .ok s ∧
    s.th 0 = .passed ∧ s.th 1 = .left := ⟨_, rfl, rfl, rfl⟩

/-- A thread waits for one that vanished. -/
example : ∃ s, barRun 2 (.init 2) [.hit 0, .vanish 1, .wake 0] = .ok s ∧
    s.th 0 = .waiting ∧ s.th 1 = .gone := ⟨_, rfl, rfl, rfl⟩

/-! ### C32 -/

def isCounted (l : ELoc) : Bool := l == .holding || l == .inHook || l == .after

/-- Invariant of a hook. -/
structure OnceInv (n : Nat) (first : Bool) (s : OnceSys) : Prop where
  hits : s.hits = cnt n (fun u => isCounted (s.th u))
  lock : ∀ t, s.lock = some t → t < n ∧ (s.th t = .holding ∨ s.th t = .inHook)
  held : ∀ t, t < n → (s.th t = .holding ∨ s.th t = .inHook) → s.lock = some t
  started : s.started = if onceExpected n first ≤ s.hits ∧ 0 < n then 1 else 0
  finished : s.finished + cnt n (fun u => s.th u == .inHook) = s.started
  firstIn : first = true → ∀ t u, t < n → u < n → s.th t = .inHook → s.th u ≠ .after

theorem OnceInv.init (n : Nat) (first : Bool) : OnceInv n first {} := by
  have hz : cnt n (fun _ => false) = 0 := cnt_zero (by simp)
  refine ⟨?_, by simp, by simp, ?_, ?_, by simp⟩
  · exact (congrArg Int.ofNat hz).symm
  · cases first <;> simp [onceExpected]
  · exact (congrArg (0 + ·) hz)

theorem OnceInv.step {n : Nat} {first : Bool} {s s' : OnceSys} {e : OnceEvent} (h : OnceInv n first s)
    (hs : onceStep n first s e = .ok s') : OnceInv n first s' := by
  obtain ⟨h1, h2, h3, h4, h5, h6⟩ := h
  obtain ⟨hits, lock, started, finished, th⟩ := s
  simp only at h1 h2 h3 h4 h5 h6
  cases e with
  | enter t =>
    simp only [onceStep] at hs
    split at hs
    · rename_i ht
      obtain ⟨ht, hb, hl⟩ := ht
      have hc := fun a => cnt_upd n th t a isCounted ht
      have hc2 := fun a => cnt_upd n th t a (fun l => l == .inHook) ht
      have hno : ∀ u, u < n → ¬ (th u = .holding ∨ th u = .inHook) := fun u hu hx => by
        have := h3 u hu hx; rw [hl] at this; cases this
      split at hs
      · split at hs
        · rename_i hx
          cases hs
          have hc := hc .inHook
          have hc2 := hc2 .inHook
          rw [hb] at hc hc2
          simp (config := { decide := true }) only [isCounted, ↓reduceIte] at hc hc2 h1
          refine ⟨?_, fun u hu => ?_, fun u hu hx => ?_, ?_, ?_, fun hf v u hv hu _ hx2 => ?_⟩
          rotate_right
          · simp only [upd] at hx2
            split at hx2
            · cases hx2
            · have hpos : 0 < cnt n (fun u => th u == ELoc.holding || th u == ELoc.inHook || th u == ELoc.after) :=
                cnt_pos hu (by rw [hx2]; rfl)
              simp only [onceExpected, hf, if_true] at hx
              omega
          · simp only [isCounted]; omega
          · cases hu; exact ⟨ht, .inr (upd_self ..)⟩
          · simp only [upd] at hx
            split at hx
            · rename_i hut; rw [hut]
            · exact absurd hx (hno u hu)
          · grind
          · simp only; omega
        · rename_i hx
          cases hs
          have hc := hc .holding
          have hc2 := hc2 .holding
          rw [hb] at hc hc2
          simp (config := { decide := true }) only [isCounted, ↓reduceIte] at hc hc2 h1
          refine ⟨?_, fun u hu => ?_, fun u hu hx => ?_, ?_, ?_, fun hf v u hv hu hx1 hx2 => ?_⟩
          rotate_right
          · simp only [upd] at hx1
            split at hx1
            · cases hx1
            · exact hno v hv (.inr hx1)
          · simp only [isCounted]; omega
          · cases hu; exact ⟨ht, .inl (upd_self ..)⟩
          · simp only [upd] at hx
            split at hx
            · rename_i hut; rw [hut]
            · exact absurd hx (hno u hu)
          · grind
          · simp only; omega
      · cases hs
    · cases hs
  | leave t =>
    simp only [onceStep] at hs
    split at hs
    · rename_i ht
      obtain ⟨ht, hb⟩ := ht
      cases hs
      have hc := cnt_upd n th t .after isCounted ht
      have hc2 := cnt_upd n th t .after (fun l => l == .inHook) ht
      rw [hb] at hc hc2
      simp (config := { decide := true }) only [isCounted, ↓reduceIte] at hc hc2 h1
      have hl := h3 t ht (.inr hb)
      refine ⟨?_, by simp, fun u hu hx => ?_, h4, ?_, fun hf v u hv hu hx1 hx2 => ?_⟩
      rotate_right
      · simp only [upd] at hx1
        split at hx1
        · cases hx1
        · rename_i hne
          have := h3 v hv (.inr hx1)
          rw [hl] at this; cases this; exact hne rfl
      · simp only [isCounted]; omega
      · simp only [upd] at hx
        split at hx
        · simp at hx
        · rename_i hne
          have := h3 u hu hx
          rw [hl] at this; cases this; exact absurd rfl hne
      · simp only; omega
    · split at hs
      · rename_i ht
        obtain ⟨ht, hb⟩ := ht
        cases hs
        have hc := cnt_upd n th t .after isCounted ht
        have hc2 := cnt_upd n th t .after (fun l => l == .inHook) ht
        rw [hb] at hc hc2
        simp (config := { decide := true }) only [isCounted, ↓reduceIte] at hc hc2 h1
        have hl := h3 t ht (.inl hb)
        refine ⟨?_, by simp, fun u hu hx => ?_, h4, ?_, fun hf v u hv hu hx1 hx2 => ?_⟩
        rotate_right
        · simp only [upd] at hx1
          split at hx1
          · cases hx1
          · rename_i hne
            have := h3 v hv (.inr hx1)
            rw [hl] at this; cases this; exact hne rfl
        · simp only [isCounted]; omega
        · simp only [upd] at hx
          split at hx
          · simp at hx
          · rename_i hne
            have := h3 u hu hx
            rw [hl] at this; cases this; exact absurd rfl hne
        · simp only; omega
      · cases hs
  | vanish t =>
    simp only [onceStep] at hs
    split at hs
    · rename_i ht
      obtain ⟨ht, hb⟩ := ht
      cases hs
      have hc := cnt_upd n th t .gone isCounted ht
      have hc2 := cnt_upd n th t .gone (fun l => l == .inHook) ht
      rw [hb] at hc hc2
      simp (config := { decide := true }) only [isCounted, ↓reduceIte] at hc hc2 h1
      refine ⟨?_, fun u hu => ?_, fun u hu hx => ?_, h4, ?_, fun hf v u hv hu hx1 hx2 => ?_⟩
      rotate_right
      · simp only [upd] at hx1 hx2
        split at hx1
        · cases hx1
        · split at hx2
          · cases hx2
          · exact h6 hf v u hv hu hx1 hx2
      · simp only [isCounted]; omega
      · have := h2 u hu
        refine ⟨this.1, ?_⟩
        simp only [upd]; split
        · rename_i hut; rw [hut, hb] at this; simp at this
        · exact this.2
      · simp only [upd] at hx
        split at hx
        · simp at hx
        · exact h3 u hu hx
      · simp only; omega
    · cases hs

theorem OnceInv.run {n : Nat} {first : Bool} {es : List OnceEvent} {s s' : OnceSys} (h : OnceInv n first s)
    (hs : onceRun n first s es = .ok s') : OnceInv n first s' := by
  induction es generalizing s with
  | nil => simp only [onceRun] at hs; cases hs; exact h
  | cons e es ih =>
    simp only [onceRun] at hs
    split at hs
    · rename_i h1; exact ih (h.step h1) hs
    · cases hs
    · cases hs

/-- **C32**: the function is started at most once, and never while or after it ran before. -/
theorem C32_at_most_once {n : Nat} {first : Bool} {es : List OnceEvent} {s : OnceSys}
    (h : onceRun n first {} es = .ok s) : s.started ≤ 1 ∧ s.finished ≤ s.started := by
  have hi := (OnceInv.init n first).run h
  have h1 : s.started ≤ 1 := by
    rw [hi.started]; split <;> simp
  exact ⟨h1, by have := hi.finished; omega⟩

/-- **C32**: a start hook has run to its end, once, before any thread gets past it. -/
theorem C32_start_hook {n : Nat} {es : List OnceEvent} {s : OnceSys} (h : onceRun n true {} es = .ok s)
    {t : Nat} (htn : t < n) (ht : s.th t = .after) : s.started = 1 ∧ s.finished = 1 := by
  have hi := (OnceInv.init n true).run h
  have hpos : 0 < cnt n (fun u => isCounted (s.th u)) := cnt_pos htn (by rw [ht]; rfl)
  have hst : s.started = 1 := by
    rw [hi.started, if_pos]
    refine ⟨?_, by omega⟩
    rw [hi.hits]; simp only [onceExpected, if_true]; omega
  refine ⟨hst, ?_⟩
  have hz : cnt n (fun u => s.th u == .inHook) = 0 := cnt_zero fun u hu => by
    simp only [beq_eq_false_iff_ne]
    exact fun hc => hi.firstIn rfl u t hu htn hc ht
  have := hi.finished; omega

/-- **C32**: an end hook starts only after every thread has arrived. -/
theorem C32_end_hook_last {n : Nat} {es : List OnceEvent} {s : OnceSys} (h : onceRun n false {} es = .ok s)
    (hs : s.started ≠ 0) {t : Nat} (htn : t < n) :
    s.th t = .holding ∨ s.th t = .inHook ∨ s.th t = .after := by
  have hi := (OnceInv.init n false).run h
  have hx : onceExpected n false ≤ s.hits ∧ 0 < n := by
    by_contra hc
    have := hi.started
    rw [if_neg hc] at this
    exact hs this
  have hfull : n ≤ cnt n (fun u => isCounted (s.th u)) := by
    have h1 := hi.hits; have h2 := hx.1
    simp only [onceExpected, Bool.false_eq_true, if_false] at h2
    omega
  have := cnt_full hfull t htn
  simp only [isCounted, Bool.or_eq_true, beq_iff_eq] at this
  tauto

/-- **C32** (partial: excludes threads that end without calling it, see
`C32_vanished_thread_no_hook`): when all threads got past the end hook, it ran exactly once. -/
theorem C32_end_hook_partial {n : Nat} {es : List OnceEvent} {s : OnceSys} (h : onceRun n false {} es = .ok s)
    (hn : 0 < n) (hall : ∀ t, t < n → s.th t = .after) : s.started = 1 ∧ s.finished = 1 := by
  have hi := (OnceInv.init n false).run h
  have hc : cnt n (fun u => isCounted (s.th u)) = n := by
    have h1 : cnt n (fun u => isCounted (s.th u)) = cnt n (fun _ => true) := by
      simp only [cnt]
      apply List.countP_congr
      intro x hx
      rw [hall x (List.mem_range.mp hx)]; simp [isCounted]
    rw [h1, cnt_true]
  have hst : s.started = 1 := by
    rw [hi.started, if_pos]
    exact ⟨by rw [hi.hits, hc]; simp [onceExpected], hn⟩
  refine ⟨hst, ?_⟩
  have hz : cnt n (fun u => s.th u == .inHook) = 0 := cnt_zero fun u hu => by rw [hall u hu]; rfl
  have := hi.finished; omega

/-- **C32**: the check in `execute` never fails. -/
theorem C32_no_crash {n : Nat} {first : Bool} {es : List OnceEvent} {f : Fault} :
    onceRun n first {} es ≠ .fault f := by
  have main : ∀ (es : List OnceEvent) (s : OnceSys), OnceInv n first s → onceRun n first s es ≠ .fault f := by
    intro es
    induction es with
    | nil => intro s _ h; simp [onceRun] at h
    | cons e es ih =>
      intro s hi h
      simp only [onceRun] at h
      split at h
      · rename_i h1; exact ih _ (hi.step h1) h
      · rename_i g h1
        cases e with
        | enter t =>
          simp only [onceStep] at h1
          split at h1
          · rename_i ht
            split at h1
            · split at h1 <;> cases h1
            · rename_i hx
              have hlt : cnt n (fun u => isCounted (s.th u)) < n := by
                rcases Nat.lt_or_ge (cnt n (fun u => isCounted (s.th u))) n with hlt | hge
                · exact hlt
                · have := cnt_full hge t ht.1
                  rw [ht.2.1] at this; cases this
              have := hi.hits
              omega
          · cases h1
        | leave t =>
          simp only [onceStep] at h1
          split at h1
          · cases h1
          · split at h1 <;> cases h1
        | vanish t => simp only [onceStep] at h1; split at h1 <;> cases h1
      · cases h
  exact main es _ (OnceInv.init n first)

/-- A thread whose `start` returns early (SenderThread.cpp:957-961, ReceiverThread.cpp:984-988)
makes the end hook never run: the transfer is never marked as ended. -/
theorem C32_vanished_thread_no_hook {n : Nat} {es : List OnceEvent} {s : OnceSys} {v : Nat} (hv : v < n)
    (h : onceRun n false {} es = .ok s) (hgone : s.th v = .gone) : s.started = 0 := by
  by_contra hne
  have := C32_end_hook_last h hne hv
  rw [hgone] at this; simp at this

/-- Two threads, start hook: thread 1 is first. -/
example : ∃ s, onceRun 2 true {} [.enter 1, .leave 1, .enter 0, .leave 0] = .ok s ∧
    s.th 0 = .after ∧ s.finished = 1 := ⟨_, rfl, rfl, rfl⟩

/-- Two threads, end hook. -/
example : ∃ s, onceRun 2 false {} [.enter 1, .leave 1, .enter 0, .leave 0] = .ok s ∧
    (∀ t, t < 2 → s.th t = .after) ∧ s.finished = 1 := by
  refine ⟨_, rfl, ?_, rfl⟩
  intro t ht
  have : t = 0 ∨ t = 1 := by omega
  rcases this with rfl | rfl <;> rfl

example : ∃ s, onceRun 2 false {} [.enter 1, .leave 1, .vanish 0] = .ok s ∧ s.th 0 = .gone := ⟨_, rfl, rfl⟩

end Wdt
