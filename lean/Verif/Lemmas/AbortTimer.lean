import Verif.Model.AbortTimer
/-
Invariants of the thread behind `-abort_after_seconds`.
-/
namespace Wdt

/-- The main thread holds the lock. -/
def AtMain.locked : AtMain → Bool
  | .set | .notify | .leave => true
  | _ => false

/-- The waiting thread holds the lock. -/
def AtTimer.locked : AtTimer → Bool
  | .enter | .test _ | .lastTest | .store | .leave => true
  | _ => false

/-- The main thread has set the flag. -/
def AtMain.past : AtMain → Bool
  | .notify | .leave | .join | .exited => true
  | _ => false

/-- Steps left after the flag has been set. -/
def AtTimer.left : AtTimer → Nat
  | .wantLock => 4
  | .enter => 3
  | .woken _ _ => 3
  | .waiting _ => 4
  | .test _ => 2
  | .lastTest => 2
  | .store => 2
  | .leave => 1
  | _ => 0

/-- What is known of the waiting thread. -/
def AtSys.TimerOk (s : AtSys) : Prop :=
  match s.timer with
  | .none => s.main = .before ∨ s.seconds ≤ 0
  | .wantLock | .enter => s.trigger = false
  | .test d => s.started + s.seconds.toNat ≤ d ∧ d ≤ s.now + s.seconds.toNat ∧ s.trigger = false
  | .waiting d => s.started + s.seconds.toNat ≤ d ∧ d ≤ s.now + s.seconds.toNat ∧ s.trigger = false ∧ s.main ≠ .leave ∧ s.main ≠ .join ∧ s.main ≠ .exited
  | .woken d t => s.started + s.seconds.toNat ≤ d ∧ d ≤ s.now + s.seconds.toNat ∧ s.trigger = false ∧ (t = true → d ≤ s.now)
  | .lastTest => s.started + s.seconds.toNat ≤ s.now ∧ s.trigger = false
  | .store => s.started + s.seconds.toNat ≤ s.now ∧ s.trigger = false ∧ s.cancelled = false
  | .leave => s.cancelled = true ∨ s.trigger = true
  | .done => s.cancelled = true ∨ s.trigger = true

structure AtInv (s : AtSys) : Prop where
  lockM : s.lockMain = s.main.locked
  lockT : s.lockTimer = s.timer.locked
  excl : ¬ (s.lockMain = true ∧ s.lockTimer = true)
  flag : s.cancelled = s.main.past
  start : s.main ≠ .before → s.started ≤ s.now
  runs : s.timer ≠ .none → s.main ≠ .before ∧ 0 < s.seconds
  early : s.trigger = true → s.timer ≠ .none ∧ s.started + s.seconds.toNat ≤ s.now
  exit : s.main = .exited → s.timer = .done ∨ s.timer = .none
  timer : s.TimerOk

theorem AtInv.init (n : Int) : AtInv { seconds := n } where
  lockM := rfl
  lockT := rfl
  excl := by simp
  flag := rfl
  start := by simp
  runs := by simp
  early := by simp
  exit := by simp
  timer := .inl rfl

theorem AtInv.event {s s' : AtSys} (hi : AtInv s) {e : AtEvent} (h : s.event e = some s') : AtInv s' := by
  obtain ⟨h1, h2, h3, h4, h5, h6, h7, h8, h9⟩ := hi
  obtain ⟨sec, now, st, tm, mn, lm, lt, cn, tr⟩ := s
  dsimp only at h1 h2 h3 h4 h5 h6 h7 h8
  subst h1 h2 h4
  unfold AtSys.TimerOk at h9
  cases e with
  | tick =>
    cases h
    refine ⟨rfl, rfl, h3, rfl, ?_, h6, ?_, h8, ?_⟩
    · intro h; have := h5 h; dsimp only at *; omega
    · intro h; have := h7 h; dsimp only at *; exact ⟨this.1, by omega⟩
    · unfold AtSys.TimerOk
      cases tm with
      | none => exact h9
      | wantLock => exact h9
      | enter => exact h9
      | test d => exact ⟨h9.1, by have := h9.2.1; dsimp only at *; omega, h9.2.2⟩
      | waiting d => exact ⟨h9.1, by have := h9.2.1; dsimp only at *; omega, h9.2.2⟩
      | woken d t =>
        exact ⟨h9.1, by have := h9.2.1; dsimp only at *; omega, h9.2.2.1, fun h => by have := h9.2.2.2 h; dsimp only at *; omega⟩
      | lastTest => exact ⟨by have := h9.1; dsimp only at *; omega, h9.2⟩
      | store => exact ⟨by have := h9.1; dsimp only at *; omega, h9.2⟩
      | leave => exact h9
      | done => exact h9
  | main =>
    unfold AtSys.event AtSys.mainStep at h
    cases mn <;> dsimp only [AtMain.locked, AtMain.past] at h h3 h5 h6 h7 h8 h9
    case before =>
      cases h
      have ht : tm = .none := by
        by_cases hn : tm = .none
        · exact hn
        · exact absurd rfl (h6 hn).1
      subst ht
      have htr : tr = false := by
        cases tr with
        | false => rfl
        | true => exact absurd rfl (h7 rfl).1
      subst htr
      by_cases hs : sec ≤ 0
      · refine ⟨rfl, ?_, ?_, rfl, ?_, ?_, ?_, ?_, ?_⟩ <;> simp [hs, AtTimer.locked, AtMain.locked, AtSys.TimerOk]
      · refine ⟨rfl, ?_, ?_, rfl, ?_, ?_, ?_, ?_, ?_⟩ <;> simp [hs, AtTimer.locked, AtMain.locked, AtSys.TimerOk]
        omega
    case exited => cases h
    case join =>
      split at h
      · rename_i hd
        cases h
        rcases hd with rfl | rfl <;>
          refine ⟨rfl, rfl, ?_, rfl, ?_, ?_, ?_, ?_, ?_⟩ <;> simp_all [AtTimer.locked, AtMain.locked, AtSys.TimerOk]
      · cases h
    case wantLock =>
      cases tm <;> dsimp only [AtTimer.locked] at h <;> cases h <;> refine ⟨rfl, rfl, ?_, rfl, ?_, ?_, ?_, ?_, ?_⟩ <;>
        simp_all [AtTimer.locked, AtMain.locked, AtSys.TimerOk, AtMain.past]
    all_goals
      cases h
      cases tm <;> refine ⟨rfl, rfl, ?_, rfl, ?_, ?_, ?_, ?_, ?_⟩ <;> simp_all [AtTimer.locked, AtMain.locked, AtSys.TimerOk, AtMain.past]
  | timer =>
    unfold AtSys.event AtSys.timerStep at h
    cases tm <;> dsimp only [AtTimer.locked] at h h3 h5 h6 h7 h8 h9
    case woken d b =>
      cases b <;> cases mn <;> dsimp only [AtMain.locked, AtMain.past] at h <;> cases h <;>
        refine ⟨rfl, rfl, ?_, rfl, ?_, ?_, ?_, ?_, ?_⟩ <;>
        simp_all [AtTimer.locked, AtMain.locked, AtSys.TimerOk, AtMain.past] <;> omega
    case lastTest =>
      cases mn <;> dsimp only [AtMain.locked, AtMain.past] at h <;> cases h <;>
        refine ⟨rfl, rfl, ?_, rfl, ?_, ?_, ?_, ?_, ?_⟩ <;>
        simp_all [AtTimer.locked, AtMain.locked, AtSys.TimerOk, AtMain.past]
    all_goals
      cases mn <;> (try dsimp only [AtMain.locked, AtMain.past] at h) <;> cases h <;>
        refine ⟨rfl, rfl, ?_, rfl, ?_, ?_, ?_, ?_, ?_⟩ <;>
        simp_all [AtTimer.locked, AtMain.locked, AtSys.TimerOk, AtMain.past]
  | spurious =>
    unfold AtSys.event at h
    cases tm <;> dsimp only at h <;> cases h
    refine ⟨rfl, rfl, ?_, rfl, ?_, ?_, ?_, ?_, ?_⟩ <;> simp_all [AtTimer.locked, AtMain.locked, AtSys.TimerOk]
  | timeout =>
    unfold AtSys.event at h
    cases tm <;> dsimp only at h <;> try cases h
    split at h
    · cases h
      refine ⟨rfl, rfl, ?_, rfl, ?_, ?_, ?_, ?_, ?_⟩ <;> simp_all [AtTimer.locked, AtMain.locked, AtSys.TimerOk]
    · cases h

end Wdt
