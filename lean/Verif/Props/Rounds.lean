import Verif.Model.Rounds
import Mathlib.Tactic.ByContra
/-
C116: the threads of a receiver, round after round.
-/
namespace Wdt

/-- Which threads should exist when the calling thread is at `pc`: those with numbers from `lo` below `hi`. -/
def RdPc.lo (n : Nat) : RdPc → Nat
  | .join i => i
  | .joined | .ended => n
  | _ => 0

/-- See `RdPc.lo`. -/
def RdPc.hi (n : Nat) : RdPc → Nat
  | .before => 0
  | .start i => i
  | _ => n

/-- What holds between all steps. -/
structure RoundInv (s : RdSys) : Prop where
  hi : s.pc.hi s.n ≤ s.n
  lo : s.pc.lo s.n ≤ s.n
  ptr : ∀ t, s.ptr t = true ↔ s.pc.lo s.n ≤ t ∧ t < s.pc.hi s.n
  one : ∀ t, s.alive t ≤ 1
  own : ∀ t, s.alive t ≠ 0 → s.ptr t = true
  mark : ∀ t, s.pc.hi s.n ≤ t → s.mark t = .running
  had : ∀ t, t < s.pc.hi s.n → s.starts t = s.round + 1
  rest : ∀ t, s.pc.hi s.n ≤ t → t < s.n → s.starts t = s.round

theorem RoundInv.init (n : Nat) (j : Bool) : RoundInv (rdInit n j) := by
  constructor <;> simp [rdInit, RdPc.hi, RdPc.lo]

theorem RoundInv.step {s : RdSys} (h : RoundInv s) (e : RdEv) :
    (∃ s', rdStep s e = .ok s' ∧ RoundInv s' ∧ s'.n = s.n ∧ s'.joinable = s.joinable) ∨ rdStep s e = .blocked := by
  obtain ⟨h1, h2, h3, h4, h5, h6, h7, h8⟩ := h
  cases e with
  | main =>
    simp only [rdStep]
    cases hp : s.pc with
    | before =>
      simp only [hp, RdPc.hi, RdPc.lo] at *
      exact .inl ⟨_, rfl, ⟨by simp [RdPc.hi], by simp [RdPc.lo], by simpa [RdPc.hi, RdPc.lo] using h3, h4, h5,
        by simpa [RdPc.hi] using h6, by simpa [RdPc.hi] using h7, by simpa [RdPc.hi] using h8⟩, rfl, rfl⟩
    | start i =>
      simp only [hp, RdPc.hi, RdPc.lo] at *
      by_cases hi : i < s.n
      · have e1 : s.ptr i = false := by
          cases hq : s.ptr i with
          | false => rfl
          | true => exact absurd ((h3 i).1 hq).2 (by omega)
        have e2 : s.mark i = .running := h6 i (Nat.le_refl _)
        have e3 : s.alive i = 0 := by
          by_contra hc
          rw [h5 i hc] at e1
          cases e1
        refine .inl ⟨{ s with pc := .start (i + 1), ptr := upd s.ptr i true, alive := upd s.alive i (s.alive i + 1), starts := upd s.starts i (s.starts i + 1) },
          by simp [hi, startThread, e1, e2], ⟨?_, ?_, ?_, ?_, ?_, ?_, ?_, ?_⟩, rfl, rfl⟩
        · simp only [RdPc.hi]; omega
        · simp only [RdPc.lo]; omega
        · intro t
          simp only [RdPc.hi, RdPc.lo, upd]
          split
          · simp; omega
          · rw [h3]; omega
        · intro t
          simp only [upd]
          split
          · omega
          · exact h4 t
        · intro t
          simp only [upd]
          split
          · simp
          · exact h5 t
        · intro t ht
          simp only [RdPc.hi] at ht
          exact h6 t (by omega)
        · intro t ht
          simp only [RdPc.hi] at ht
          simp only [upd]
          split
          · rw [h8 i (Nat.le_refl _) hi]
          · exact h7 t (by omega)
        · intro t ht htn
          simp only [RdPc.hi] at ht
          simp only [upd]
          rw [if_neg (by omega)]
          exact h8 t (by omega) htn
      · have hn : i = s.n := by omega
        subst hn
        simp only [Nat.lt_irrefl, if_false]
        split
        · exact .inl ⟨_, rfl, ⟨by simp [RdPc.hi], by simp [RdPc.lo], by simpa [RdPc.hi, RdPc.lo] using h3, h4, h5,
            by simpa [RdPc.hi] using h6, by simpa [RdPc.hi] using h7, by simpa [RdPc.hi] using h8⟩, rfl, rfl⟩
        · exact .inl ⟨_, rfl, ⟨by simp [RdPc.hi], by simp [RdPc.lo], by simpa [RdPc.hi, RdPc.lo] using h3, h4, h5,
            by simpa [RdPc.hi] using h6, by simpa [RdPc.hi] using h7, by simpa [RdPc.hi] using h8⟩, rfl, rfl⟩
    | returned =>
      simp only [hp, RdPc.hi, RdPc.lo] at *
      exact .inl ⟨_, rfl, ⟨by simp [RdPc.hi], by simp [RdPc.lo], by simpa [RdPc.hi, RdPc.lo] using h3, h4, h5,
        by simpa [RdPc.hi] using h6, by simpa [RdPc.hi] using h7, by simpa [RdPc.hi] using h8⟩, rfl, rfl⟩
    | join i =>
      simp only [hp, RdPc.hi, RdPc.lo] at *
      by_cases hi : i < s.n
      · have e1 : s.ptr i = true := (h3 i).2 ⟨Nat.le_refl _, hi⟩
        by_cases ha : s.alive i = 0
        · refine .inl ⟨{ s with pc := .join (i + 1), ptr := upd s.ptr i false }, by simp [hi, finishThread, e1, ha], ⟨?_, ?_, ?_, h4, ?_, ?_, ?_, ?_⟩, rfl, rfl⟩
          · simp [RdPc.hi]
          · simp only [RdPc.lo]; omega
          · intro t
            simp only [RdPc.hi, RdPc.lo, upd]
            split
            · simp; omega
            · rw [h3]; omega
          · intro t ht
            simp only [upd]
            split
            · subst t
              exact absurd ha ht
            · exact h5 t ht
          · simpa [RdPc.hi] using h6
          · simpa [RdPc.hi] using h7
          · simpa [RdPc.hi] using h8
        · right
          simp [hi, finishThread, e1, ha]
      · have hn : i = s.n := by omega
        subst hn
        simp only [Nat.lt_irrefl, if_false]
        exact .inl ⟨_, rfl, ⟨by simp [RdPc.hi], by simp [RdPc.lo], by simpa [RdPc.hi, RdPc.lo] using h3, h4, h5,
          by simpa [RdPc.hi] using h6, by simpa [RdPc.hi] using h7, by simpa [RdPc.hi] using h8⟩, rfl, rfl⟩
    | joined =>
      simp only [hp, RdPc.hi, RdPc.lo] at *
      have hno : ∀ t, s.ptr t = false := by
        intro t
        cases hq : s.ptr t with
        | false => rfl
        | true => exact absurd ((h3 t).1 hq) (by omega)
      split
      · exact .inl ⟨_, rfl, ⟨by simp [RdPc.hi], by simp [RdPc.lo], by simpa [RdPc.hi, RdPc.lo] using h3, h4, h5,
          by simpa [RdPc.hi] using h6, by simpa [RdPc.hi] using h7, by simpa [RdPc.hi] using h8⟩, rfl, rfl⟩
      · refine .inl ⟨_, rfl, ⟨by simp [RdPc.hi], by simp [RdPc.lo], ?_, h4, h5, ?_, ?_, ?_⟩, rfl, rfl⟩
        · intro t
          simp [RdPc.hi, RdPc.lo, resetMarks, hno t]
        · intro t _
          rfl
        · intro t ht
          simp [RdPc.hi] at ht
        · intro t _ ht
          exact h7 t ht
    | ended => exact .inr rfl
  | mark t m =>
    simp only [rdStep]
    split
    · rename_i ha
      refine .inl ⟨_, rfl, ⟨h1, h2, h3, h4, h5, ?_, h7, h8⟩, rfl, rfl⟩
      intro u hu
      have := (h3 t).1 (h5 t (by omega))
      simp only [upd]
      split
      · subst u
        dsimp only at hu
        omega
      · exact h6 u hu
    · exact .inr rfl
  | stop t =>
    simp only [rdStep]
    split
    · rename_i ha
      refine .inl ⟨_, rfl, ⟨h1, h2, h3, ?_, ?_, h6, h7, h8⟩, rfl, rfl⟩
      · intro u
        have := h4 t
        simp only [upd]
        split
        · omega
        · exact h4 u
      · intro u hu
        simp only [upd] at hu
        split at hu
        · subst u
          exact h5 t (by omega)
        · exact h5 u hu
    · exact .inr rfl
  | allEnd t =>
    simp only [rdStep]
    split
    · exact .inl ⟨_, rfl, ⟨h1, h2, h3, h4, h5, h6, h7, h8⟩, rfl, rfl⟩
    · exact .inr rfl

theorem RoundInv.run {es : List RdEv} : ∀ {s : RdSys}, RoundInv s →
    (∃ s', rdRun s es = .ok s' ∧ RoundInv s' ∧ s'.n = s.n ∧ s'.joinable = s.joinable) ∨ rdRun s es = .blocked := by
  induction es with
  | nil => exact fun h => .inl ⟨_, rfl, h, rfl, rfl⟩
  | cons e es ih =>
    intro s h
    rcases h.step e with ⟨s1, e1, i1, n1, j1⟩ | e1
    · rcases ih i1 with ⟨s2, e2, i2, n2, j2⟩ | e2
      · exact .inl ⟨s2, by simp only [rdRun, e1, e2], i2, n2.trans n1, j2.trans j1⟩
      · exact .inr (by simp only [rdRun, e1, e2])
    · exact .inr (by simp only [rdRun, e1])

theorem RoundInv.of {n : Nat} {j : Bool} {es : List RdEv} {s : RdSys} (hr : rdRun (rdInit n j) es = .ok s) :
    RoundInv s ∧ s.n = n ∧ s.joinable = j := by
  rcases (RoundInv.init n j).run (es := es) with ⟨s', e, i, a, b⟩ | e
  · rw [e] at hr
    cases hr
    exact ⟨i, a, b⟩
  · rw [e] at hr
    cases hr

/-- Starting and joining the threads never fails a check, in no round, whatever the threads do. -/
theorem C116_no_check_fails (n : Nat) (j : Bool) (es : List RdEv) (f : Fault) : rdRun (rdInit n j) es ≠ .fault f := by
  rcases (RoundInv.init n j).run (es := es) with ⟨s', e, _⟩ | e <;> rw [e] <;> simp

/-- There is never more than one thread for a port, and none for a number that is no port's. -/
theorem C116_one_thread_per_port (n : Nat) (j : Bool) (es : List RdEv) (s : RdSys) (hr : rdRun (rdInit n j) es = .ok s) (t : Nat) :
    s.alive t ≤ 1 ∧ (s.alive t ≠ 0 → t < n) := by
  obtain ⟨h, hn, _⟩ := RoundInv.of hr
  refine ⟨h.one t, fun ha => ?_⟩
  have := ((h.ptr t).1 (h.own t ha)).2
  have := h.hi
  omega

/-- In every round exactly one thread is started for each port: while those of the current round are being
started, the ports before the next have had one more than there were resets, the others as many; at every
time later in the round, one more. -/
theorem C116_each_round (n : Nat) (j : Bool) (es : List RdEv) (s : RdSys) (hr : rdRun (rdInit n j) es = .ok s) (t : Nat) (ht : t < n) :
    (∀ i, s.pc = .start i → s.starts t = s.round + (if t < i then 1 else 0)) ∧
    ((s.pc = .returned ∨ (∃ i, s.pc = .join i) ∨ s.pc = .joined ∨ s.pc = .ended) → s.starts t = s.round + 1) := by
  obtain ⟨h, hn, _⟩ := RoundInv.of hr
  have h1 := h.had t
  have h2 := h.rest t
  rw [hn] at h1 h2
  refine ⟨fun i hp => ?_, ?_⟩
  · simp only [hp, RdPc.hi] at h1 h2
    split
    · exact h1 (by assumption)
    · exact h2 (by omega) ht
  · rintro (hp | ⟨i, hp⟩ | hp | hp) <;> simp only [hp, RdPc.hi] at h1 <;> exact h1 ht

/-- When the shared state of the threads is set back for the next round, and when `finish` goes on to make
the report, no thread is left. -/
theorem C116_nobody_left (n : Nat) (j : Bool) (es : List RdEv) (s : RdSys) (hr : rdRun (rdInit n j) es = .ok s)
    (hp : s.pc = .joined ∨ s.pc = .ended) (t : Nat) : s.alive t = 0 := by
  obtain ⟨h, _, _⟩ := RoundInv.of hr
  by_contra ha
  have := (h.ptr t).1 (h.own t ha)
  rcases hp with hp | hp <;> simp only [hp, RdPc.hi, RdPc.lo] at this <;> omega

/-- A thread whose connection is done early does not take ports that are not served yet for finished ones:
until a thread is started it counts as running, in every round. -/
theorem C116_not_started_counts_as_running (n : Nat) (j : Bool) (es : List RdEv) (s : RdSys) (hr : rdRun (rdInit n j) es = .ok s)
    (i : Nat) (hp : s.pc = .start i) (t : Nat) (ht : i ≤ t) : s.mark t = .running := by
  obtain ⟨h, _, _⟩ := RoundInv.of hr
  exact h.mark t (by simpa [hp, RdPc.hi] using ht)

theorem rdRun_append {s s' : RdSys} {es es' : List RdEv} (h : rdRun s es = .ok s') : rdRun s (es ++ es') = rdRun s' es' := by
  induction es generalizing s with
  | nil => cases h; rfl
  | cons e es ih =>
    simp only [rdRun, List.cons_append] at h ⊢
    split at h
    · exact ih h
    · cases h
    · cases h

theorem rdJoin_all (k : Nat) : ∀ (s : RdSys) (i : Nat), s.pc = .join i → i + k = s.n → (∀ t, s.alive t = 0) →
    ∃ s', rdRun s (List.replicate (k + 1) .main) = .ok s' ∧ s'.pc = .joined ∧ s'.round = s.round ∧ s'.joinable = s.joinable := by
  induction k with
  | zero =>
    intro s i hp hk ha
    exact ⟨{ s with pc := .joined }, by simp [rdRun, rdStep, hp, show ¬ i < s.n by omega], rfl, rfl, rfl⟩
  | succ k ih =>
    intro s i hp hk ha
    have hi : i < s.n := by omega
    have : ∃ s1, rdStep s .main = .ok s1 ∧ s1.pc = .join (i + 1) ∧ s1.n = s.n ∧ s1.alive = s.alive ∧ s1.round = s.round ∧
        s1.joinable = s.joinable := by
      simp only [rdStep, hp, hi, if_true, finishThread, ha i]
      by_cases hq : s.ptr i = false
      · simp only [hq]; exact ⟨_, rfl, rfl, rfl, rfl, rfl, rfl⟩
      · simp only [hq]; exact ⟨_, rfl, rfl, rfl, rfl, rfl, rfl⟩
    obtain ⟨s1, e1, p1, n1, a1, r1, j1⟩ := this
    obtain ⟨s2, e2, p2, r2, j2⟩ := ih s1 (i + 1) p1 (by omega) (by rw [a1]; exact ha)
    refine ⟨s2, ?_, p2, r2.trans r1, j2.trans j1⟩
    rw [List.replicate_succ, rdRun, e1]
    exact e2

/-- When all threads of a round have ended, a receiver that runs for ever goes on to the next round, by
steps of its own, without waiting for anything. -/
theorem C116_goes_on (n : Nat) (es : List RdEv) (s : RdSys) (hr : rdRun (rdInit n false) es = .ok s)
    (i : Nat) (hp : s.pc = .join i) (ha : ∀ t, s.alive t = 0) :
    ∃ s', rdRun s (List.replicate (n - i + 2) .main) = .ok s' ∧ s'.pc = .start 0 ∧ s'.round = s.round + 1 := by
  obtain ⟨h, hn, hj⟩ := RoundInv.of hr
  have hlo := h.lo
  simp only [hp, RdPc.lo] at hlo
  obtain ⟨s1, e1, p1, r1, j1⟩ := rdJoin_all (n - i) s i hp (by omega) ha
  refine ⟨{ resetMarks s1 with pc := .start 0, status := .notStarted }, ?_, rfl, by simp [resetMarks, r1]⟩
  rw [show List.replicate (n - i + 2) RdEv.main = List.replicate (n - i + 1) .main ++ [.main] from List.replicate_succ',
    rdRun_append e1]
  simp [rdRun, rdStep, p1, j1, hj]

/-- What the status says, in the first round and in later ones. -/
structure StatusInv (s : RdSys) : Prop where
  before : s.pc = .before → s.round = 0
  first : s.pc ≠ .before → s.round = 0 → s.status ≠ .notStarted
  later : 0 < s.round → s.status = .notStarted ∨ s.status = .finished
  forever : 0 < s.round → s.joinable = false

theorem startThread_same {s s' : RdSys} {t : Nat} (h : startThread s t = .ok s') :
    s'.status = s.status ∧ s'.round = s.round ∧ s'.joinable = s.joinable := by
  unfold startThread at h
  split at h
  · cases h
  · split at h
    · cases h
    · cases h; exact ⟨rfl, rfl, rfl⟩

theorem finishThread_same {s s' : RdSys} {t : Nat} (h : finishThread s t = .ok s') :
    s'.status = s.status ∧ s'.round = s.round ∧ s'.joinable = s.joinable := by
  unfold finishThread at h
  split at h
  · cases h; exact ⟨rfl, rfl, rfl⟩
  · split at h
    · cases h
    · cases h; exact ⟨rfl, rfl, rfl⟩

theorem StatusInv.step {s s' : RdSys} {e : RdEv} (hi : RoundInv s) (h : StatusInv s) (hs : rdStep s e = .ok s') : StatusInv s' := by
  obtain ⟨b, f, l, v⟩ := h
  cases e with
  | main =>
    simp only [rdStep] at hs
    cases hp : s.pc with
    | before =>
      rw [hp] at hs
      cases hs
      have := b hp
      exact ⟨by simp, by simp, by simp [this], by simp [this]⟩
    | start i =>
      have f' := f (by simp [hp])
      simp only [hp] at hs
      split at hs
      · split at hs
        · rename_i m hm
          cases hs
          obtain ⟨e1, e2, e3⟩ := startThread_same hm
          exact ⟨by simp, fun _ => by dsimp only; rw [e1, e2]; exact f', by dsimp only; rw [e1, e2]; exact l, by dsimp only; rw [e2, e3]; exact v⟩
        · cases hs
      · split at hs
        · cases hs; exact ⟨by simp, fun _ => f', l, v⟩
        · cases hs; exact ⟨by simp, fun _ => f', l, v⟩
    | returned =>
      rw [hp] at hs
      cases hs
      exact ⟨by simp, fun _ => f (by simp [hp]), l, v⟩
    | join i =>
      have f' := f (by simp [hp])
      simp only [hp] at hs
      split at hs
      · split at hs
        · rename_i m hm
          cases hs
          obtain ⟨e1, e2, e3⟩ := finishThread_same hm
          exact ⟨by simp, fun _ => by dsimp only; rw [e1, e2]; exact f', by dsimp only; rw [e1, e2]; exact l, by dsimp only; rw [e2, e3]; exact v⟩
        · cases hs
        · cases hs
      · cases hs; exact ⟨by simp, fun _ => f', l, v⟩
    | joined =>
      rw [hp] at hs
      dsimp only at hs
      split at hs
      · rename_i hj
        cases hs
        exact ⟨by simp, by simp, fun hr => absurd (v hr) (by simp [hj]), v⟩
      · rename_i hj
        cases hs
        exact ⟨by simp, by simp [resetMarks], fun _ => .inl rfl, fun _ => by simpa [resetMarks] using hj⟩
    | ended => rw [hp] at hs; cases hs
  | mark t m =>
    simp only [rdStep] at hs
    split at hs
    · cases hs; exact ⟨b, f, l, v⟩
    · cases hs
  | stop t =>
    simp only [rdStep] at hs
    split at hs
    · cases hs; exact ⟨b, f, l, v⟩
    · cases hs
  | allEnd t =>
    simp only [rdStep] at hs
    split at hs
    · rename_i ha
      cases hs
      refine ⟨b, fun _ _ => by simp, fun _ => .inr rfl, v⟩
    · cases hs

theorem StatusInv.run {es : List RdEv} : ∀ {s s' : RdSys}, RoundInv s → StatusInv s → rdRun s es = .ok s' → StatusInv s' := by
  induction es with
  | nil => intro s s' _ h hr; cases hr; exact h
  | cons e es ih =>
    intro s s' hi h hr
    simp only [rdRun] at hr
    split at hr
    · rename_i m hm
      rcases hi.step e with ⟨m', e', i', _⟩ | e'
      · rw [hm] at e'
        cases e'
        exact ih i' (h.step hi hm) hr
      · rw [hm] at e'
        cases e'
    · cases hr
    · cases hr

theorem StatusInv.init (n : Nat) (j : Bool) : StatusInv (rdInit n j) := by
  constructor <;> simp [rdInit]

/-- During the first transfer `hasStarted` says that the transfer has started. -/
theorem C116_has_started_partial (n : Nat) (j : Bool) (es : List RdEv) (s : RdSys) (hr : rdRun (rdInit n j) es = .ok s)
    (hp : s.pc ≠ .before) (h0 : s.round = 0) : s.hasStarted = true := by
  simpa [RdSys.hasStarted] using ((StatusInv.init n j).run (RoundInv.init n j) hr).first hp h0

/-- In all later rounds of a receiver that runs for ever it does not, until the session has ended:
the status is set once before the loop (Receiver.cpp:459) and set back in it (Receiver.cpp:476). -/
theorem C116_violated_has_started (n : Nat) (j : Bool) (es : List RdEv) (s : RdSys) (hr : rdRun (rdInit n j) es = .ok s)
    (h0 : 0 < s.round) : s.hasStarted = true → s.status = .finished := by
  intro h
  rcases ((StatusInv.init n j).run (RoundInv.init n j) hr).later h0 with h1 | h1
  · simp [RdSys.hasStarted, h1] at h
  · exact h1

/-- Two ports: thread 0 is done and has ended before thread 1 is started; then a second round begins. -/
def rdTwo : List RdEv :=
  [.main, .main, .mark 0 .waiting, .mark 0 .finished, .stop 0, .main, .main, .mark 1 .finished, .main, .stop 1]

example : ∃ s, rdRun (rdInit 2 false) rdTwo = .ok s ∧ s.pc = .join 1 ∧ s.alive 0 = 0 ∧ s.alive 1 = 0 ∧ s.mark 0 = .finished := ⟨_, rfl, rfl, rfl, rfl, rfl⟩

example : ∃ s, rdRun (rdInit 2 false) (rdTwo ++ [.main, .main, .main, .main]) = .ok s ∧ s.pc = .start 1 ∧ s.round = 1 ∧
    s.starts 0 = 2 ∧ s.starts 1 = 1 ∧ s.mark 1 = .running ∧ s.alive 0 = 1 ∧ s.hasStarted = false := ⟨_, rfl, rfl, rfl, rfl, rfl, rfl, rfl, rfl⟩

example : ∃ s, rdRun (rdInit 1 true) [.main, .main, .main, .main, .stop 0, .main, .main, .main] = .ok s ∧ s.pc = .ended := ⟨_, rfl, rfl⟩

end Wdt
