import Verif.Lemmas.AbortTimer
/-
C102: `-abort_after_seconds`.
-/
namespace Wdt

theorem AtInv.run : ∀ (es : List AtEvent) {s s' : AtSys}, AtInv s → atRun s es = some s' → AtInv s'
  | [], _, _, hi, h => by unfold atRun at h; cases h; exact hi
  | e :: es, s, s', hi, h => by
    unfold atRun at h
    rw [Option.bind_eq_some_iff] at h
    obtain ⟨s1, h1, h2⟩ := h
    exact AtInv.run es (hi.event h1) h2

/-- The seconds that have passed since the main thread's first step, the setting up. -/
def secondsSinceSetup (es : List AtEvent) : Nat := (es.dropWhile fun e => decide (e ≠ .main)).count .tick

/-- What an event does to the clock and to the beginning. -/
theorem at_clock {s s' : AtSys} {e : AtEvent} (h : s.event e = some s') : s'.seconds = s.seconds ∧
    s'.now = s.now + (if e = .tick then 1 else 0) ∧
    (s.main = .before → if e = .main then s'.main ≠ .before ∧ s'.started = s.now else s'.main = .before) ∧
    (s.main ≠ .before → s'.main ≠ .before ∧ s'.started = s.started) := by
  obtain ⟨sec, now, st, tm, mn, lm, lt, cn, tr⟩ := s
  cases e with
  | tick => cases h; simp
  | spurious => unfold AtSys.event at h; cases tm <;> dsimp only at h <;> cases h <;> simp
  | timeout =>
    unfold AtSys.event at h
    cases tm <;> dsimp only at h <;> (try split at h) <;> cases h <;> simp
  | timer =>
    unfold AtSys.event AtSys.timerStep at h
    cases tm <;> dsimp only at h <;> (try split at h) <;> cases h <;> simp
  | main =>
    unfold AtSys.event AtSys.mainStep at h
    cases mn <;> dsimp only at h <;> (try split at h) <;> cases h <;> simp

theorem at_after : ∀ (es : List AtEvent) {s s' : AtSys}, s.main ≠ .before → atRun s es = some s' →
    s'.seconds = s.seconds ∧ s'.main ≠ .before ∧ s'.started = s.started ∧ s'.now = s.now + es.count .tick
  | [], _, _, hm, h => by unfold atRun at h; cases h; exact ⟨rfl, hm, rfl, rfl⟩
  | e :: es, s, s', hm, h => by
    unfold atRun at h
    rw [Option.bind_eq_some_iff] at h
    obtain ⟨s1, h1, h2⟩ := h
    obtain ⟨a, b, _, d⟩ := at_clock h1
    obtain ⟨p, q, r, u⟩ := at_after es (d hm).1 h2
    refine ⟨p.trans a, q, r.trans (d hm).2, ?_⟩
    rw [u, b, List.count_cons]
    by_cases he : e = .tick
    · subst he; simp; omega
    · have : (e == AtEvent.tick) = false := by simpa using he
      simp [he, this]

theorem at_since : ∀ (es : List AtEvent) {s s' : AtSys}, s.main = .before → atRun s es = some s' →
    s'.seconds = s.seconds ∧ (s'.main ≠ .before → s'.now = s'.started + secondsSinceSetup es)
  | [], _, _, hm, h => by unfold atRun at h; cases h; exact ⟨rfl, fun h => absurd hm h⟩
  | e :: es, s, s', hm, h => by
    unfold atRun at h
    rw [Option.bind_eq_some_iff] at h
    obtain ⟨s1, h1, h2⟩ := h
    obtain ⟨a, b, c, _⟩ := at_clock h1
    by_cases he : e = .main
    · subst he
      have c := c hm
      rw [if_pos rfl] at c
      obtain ⟨p, q, r, u⟩ := at_after es c.1 h2
      refine ⟨p.trans a, fun _ => ?_⟩
      unfold secondsSinceSetup
      rw [List.dropWhile_cons_of_neg (by simp), List.count_cons]
      rw [u, r, c.2, b]
      simp
    · have c := c hm
      rw [if_neg he] at c
      obtain ⟨p, q⟩ := at_since es c h2
      refine ⟨p.trans a, ?_⟩
      unfold secondsSinceSetup
      rw [List.dropWhile_cons_of_pos (by simpa using he)]
      exact q

theorem at_stays : ∀ (es : List AtEvent) (s s' : AtSys), s.trigger = true → atRun s es = some s' → s'.trigger = true
  | [], _, _, ht, h => by unfold atRun at h; cases h; exact ht
  | e :: es, s, s', ht, h => by
    unfold atRun at h
    rw [Option.bind_eq_some_iff] at h
    obtain ⟨s1, h1, h2⟩ := h
    refine at_stays es s1 s' ?_ h2
    obtain ⟨sec, now, st, tm, mn, lm, lt, cn, tr⟩ := s
    dsimp only at ht
    subst ht
    cases e with
    | tick => cases h1; rfl
    | spurious => unfold AtSys.event at h1; cases tm <;> dsimp only at h1 <;> cases h1 <;> rfl
    | timeout => unfold AtSys.event at h1; cases tm <;> dsimp only at h1 <;> (try split at h1) <;> cases h1 <;> rfl
    | timer => unfold AtSys.event AtSys.timerStep at h1; cases tm <;> dsimp only at h1 <;> (try split at h1) <;> cases h1 <;> rfl
    | main => unfold AtSys.event AtSys.mainStep at h1; cases mn <;> dsimp only at h1 <;> (try split at h1) <;> cases h1 <;> rfl

/-- The transfer is never aborted by this before the given number of seconds has passed since it
was set up, and not at all if that number is not positive.  Once an abort has been asked for, this
remains so. -/
theorem C102_never_early (n : Int) (es : List AtEvent) (s : AtSys) (h : atRun { seconds := n } es = some s) (ht : s.trigger = true) :
    0 < n ∧ n ≤ secondsSinceSetup es ∧
    ∀ (es' : List AtEvent) (s' : AtSys), atRun s es' = some s' → s'.trigger = true := by
  have hi := (AtInv.init n).run es h
  obtain ⟨h1, h2⟩ := at_since es rfl h
  have h1 : s.seconds = n := h1
  obtain ⟨a, b⟩ := hi.early ht
  obtain ⟨c, d⟩ := hi.runs a
  have := h2 c
  refine ⟨by omega, by omega, ?_⟩
  exact fun es' s' => at_stays es' s s' ht

/-- After the end of a transfer has cancelled it, no abort is asked for any more. -/
theorem C102_cancelled (n : Int) (es : List AtEvent) (s : AtSys) (h : atRun { seconds := n } es = some s) (hc : s.cancelled = true)
    (ht : s.trigger = false) (es' : List AtEvent) (s' : AtSys) (h' : atRun s es' = some s') : s'.trigger = false := by
  have hi := (AtInv.init n).run es h
  clear h
  induction es' generalizing s with
  | nil => unfold atRun at h'; cases h'; exact ht
  | cons e es ih =>
    unfold atRun at h'
    rw [Option.bind_eq_some_iff] at h'
    obtain ⟨s1, h1, h2⟩ := h'
    have key : s1.cancelled = true ∧ s1.trigger = false := by
      have h9 := hi.timer
      unfold AtSys.TimerOk at h9
      obtain ⟨sec, now, st, tm, mn, lm, lt, cn, tr⟩ := s
      dsimp only at ht hc
      subst ht hc
      cases e with
      | tick => cases h1; exact ⟨rfl, rfl⟩
      | spurious => unfold AtSys.event at h1; cases tm <;> dsimp only at h1 <;> cases h1 <;> exact ⟨rfl, rfl⟩
      | timeout => unfold AtSys.event at h1; cases tm <;> dsimp only at h1 <;> (try split at h1) <;> cases h1 <;> exact ⟨rfl, rfl⟩
      | timer =>
        unfold AtSys.event AtSys.timerStep at h1
        cases tm <;> dsimp only at h1 h9 <;> (try split at h1) <;> cases h1 <;> first | exact ⟨rfl, rfl⟩ | (simp at h9)
      | main =>
        unfold AtSys.event AtSys.mainStep at h1
        cases mn <;> dsimp only at h1 <;> (try split at h1) <;> cases h1 <;> exact ⟨rfl, rfl⟩
    exact ih s1 key.1 key.2 h2 (hi.event h1)

/-- While a transfer runs with a positive number of seconds, the thread does not give up before it
has asked for the abort, and the only thing it waits for is the clock: whatever has happened so far,
spurious wake-ups included, `n` more seconds and seven steps of its own are enough. -/
theorem C102_aborts (n : Int) (es : List AtEvent) (s : AtSys) (h : atRun { seconds := n } es = some s) (hn : 0 < n)
    (hm : s.main = .transfer) (ht : s.trigger = false) :
    ∃ es' s', atRun s es' = some s' ∧ s'.trigger = true ∧ .main ∉ es' ∧ es'.count .tick ≤ n.toNat ∧ es'.length ≤ n.toNat + 7 := by
  have hi := (AtInv.init n).run es h
  obtain ⟨hs, -⟩ := at_since es rfl h
  have hs : s.seconds = n := hs
  have ticks : ∀ (k : Nat) (x : AtSys) (r : List AtEvent),
      atRun x (List.replicate k .tick ++ r) = atRun { x with now := x.now + k } r := by
    intro k
    induction k with
    | zero => intro x r; rfl
    | succ k ih =>
      intro x r
      rw [List.replicate_succ, List.cons_append]
      show atRun { x with now := x.now + 1 } _ = _
      rw [ih]
      congr 2
      dsimp only
      omega
  have hwait : ∀ (x : AtSys) (d : Nat), x.timer = .waiting d → x.lockMain = false → x.cancelled = false → d ≤ x.now + n.toNat →
      ∃ s', atRun x (List.replicate n.toNat .tick ++ [.timeout, .timer, .timer, .timer]) = some s' ∧ s'.trigger = true := by
    intro x d h1 h2 h3 h4
    rw [ticks]
    obtain ⟨sec, now, st, tm, mn, lm, lt, cn, tr⟩ := x
    dsimp only at h1 h2 h3 h4
    subst h1 h2 h3
    simp [atRun, AtSys.event, AtSys.timerStep, h4]
  have fin : ∀ (pre : List AtEvent) (x : AtSys) (d : Nat), atRun s pre = some x → x.timer = .waiting d → x.lockMain = false →
      x.cancelled = false → d ≤ x.now + n.toNat → .main ∉ pre → pre.count .tick = 0 → pre.length ≤ 3 →
      ∃ es' s', atRun s es' = some s' ∧ s'.trigger = true ∧ .main ∉ es' ∧ es'.count .tick ≤ n.toNat ∧ es'.length ≤ n.toNat + 7 := by
    intro pre x d h0 h1 h2 h3 h4 h5 h6 h7
    obtain ⟨s', a, b⟩ := hwait x d h1 h2 h3 h4
    refine ⟨pre ++ (List.replicate n.toNat .tick ++ [.timeout, .timer, .timer, .timer]), s', ?_, b, ?_, ?_, ?_⟩
    · have app : ∀ (p : List AtEvent) (y : AtSys) (q : List AtEvent), atRun y p = some x → atRun y (p ++ q) = atRun x q := by
        intro p
        induction p with
        | nil => intro y q h; unfold atRun at h; cases h; rfl
        | cons e p ih =>
          intro y q h
          unfold atRun at h
          rw [Option.bind_eq_some_iff] at h
          obtain ⟨z, hz, hr⟩ := h
          rw [List.cons_append]
          show (y.event e).bind _ = _
          rw [hz]
          exact ih z q hr
      rw [app pre s _ h0, a]
    · intro hm
      rcases List.mem_append.1 hm with hm | hm
      · exact h5 hm
      · rcases List.mem_append.1 hm with hm | hm
        · rw [List.mem_replicate] at hm; exact absurd hm.2 (by decide)
        · simp at hm
    · rw [List.count_append, List.count_append, h6, List.count_replicate_self]; simp [List.count_cons]
    · simp only [List.length_append, List.length_replicate, List.length_cons, List.length_nil]; omega
  have h9 := hi.timer
  have hlm := hi.lockM
  have hfl := hi.flag
  rw [hm] at hlm hfl
  have hst := hi.start (by rw [hm]; simp)
  unfold AtSys.TimerOk at h9
  obtain ⟨sec, now, st, tm, mn, lm, lt, cn, tr⟩ := s
  dsimp only [AtMain.locked, AtMain.past] at hm ht hlm hfl hs hst
  subst hm ht hlm hfl hs
  cases tm <;> dsimp only at h9
  case none =>
    rcases h9 with h | h
    · cases h
    · dsimp only at hn; omega
  case wantLock =>
    exact fin [.timer, .timer, .timer] _ _ rfl rfl rfl rfl (Nat.le_refl _) (by decide) (by decide) (by decide)
  case enter => exact fin [.timer, .timer] _ _ rfl rfl rfl rfl (Nat.le_refl _) (by decide) (by decide) (by decide)
  case test d => exact fin [.timer] _ _ rfl rfl rfl rfl h9.2.1 (by decide) (by decide) (by decide)
  case waiting d => exact fin [] _ _ rfl rfl rfl rfl h9.2.1 (by decide) (by decide) (by decide)
  case woken d b =>
    cases b
    · exact fin [.timer, .timer] _ _ rfl rfl rfl rfl h9.2.1 (by decide) (by decide) (by decide)
    · exact ⟨[.timer, .timer, .timer], _, rfl, rfl, by decide, by simp [List.count_cons], by simp⟩
  case lastTest => exact ⟨[.timer, .timer], _, rfl, rfl, by decide, by simp [List.count_cons], by simp⟩
  case store => exact ⟨[.timer], _, rfl, rfl, by decide, by simp [List.count_cons], by simp⟩
  case leave => rcases h9 with h | h <;> cases h
  case done => rcases h9 with h | h <;> cases h

/-- The end of the process is not delayed: after a transfer has ended nothing is ever stuck, and
once the main thread only waits for the other one this makes at most four more steps, for none of
which time has to pass, and then the process is over. -/
theorem C102_exits (n : Int) (es : List AtEvent) (s : AtSys) (h : atRun { seconds := n } es = some s) :
    (s.main ≠ .exited → s.main ≠ .before → s.main ≠ .transfer → (s.event .main).isSome ∨ (s.event .timer).isSome) ∧
    (s.main = .join → ∀ (es' : List AtEvent) (s' : AtSys), atRun s es' = some s' → es'.count .timer ≤ 4 ∧
      (s'.event .timer = none → s'.main = .exited ∨ ∃ s'', s'.event .main = some s'' ∧ s''.main = .exited)) := by
  have hi := (AtInv.init n).run es h
  constructor
  · intro h1 h2 h3
    have hlm := hi.lockM
    have hlt := hi.lockT
    have hex := hi.excl
    have h9 := hi.timer
    unfold AtSys.TimerOk at h9
    obtain ⟨sec, now, st, tm, mn, lm, lt, cn, tr⟩ := s
    dsimp only at h1 h2 h3 hlm hlt hex h9
    subst hlm hlt
    cases mn <;> cases tm <;>
      simp_all [AtSys.event, AtSys.mainStep, AtSys.timerStep, AtMain.locked, AtTimer.locked] <;> split <;> simp
  · intro hj
    have gen : ∀ (es' : List AtEvent) (x x' : AtSys), AtInv x → x.main = .join ∨ x.main = .exited → atRun x es' = some x' →
        es'.count .timer ≤ x.timer.left ∧
        (x'.event .timer = none → x'.main = .exited ∨ ∃ s'', x'.event .main = some s'' ∧ s''.main = .exited) := by
      intro es'
      induction es' with
      | nil =>
        intro x x' hx hj h
        unfold atRun at h; cases h
        refine ⟨by simp, ?_⟩
        intro hno
        have hlm := hx.lockM
        have h9 := hx.timer
        unfold AtSys.TimerOk at h9
        obtain ⟨sec, now, st, tm, mn, lm, lt, cn, tr⟩ := x
        dsimp only at hlm h9 hj hno
        subst hlm
        rcases hj with rfl | rfl
        · right
          cases tm <;> simp_all [AtSys.event, AtSys.mainStep, AtSys.timerStep, AtMain.locked] <;> split at hno <;> simp at hno
        · exact .inl rfl
      | cons e es' ih =>
        intro x x' hx hj h
        unfold atRun at h
        rw [Option.bind_eq_some_iff] at h
        obtain ⟨x1, h1, h2⟩ := h
        have step : (x1.main = .join ∨ x1.main = .exited) ∧ x1.timer.left + (if e = .timer then 1 else 0) ≤ x.timer.left := by
          have h9 := hx.timer
          have hfl := hx.flag
          have hex := hx.exit
          unfold AtSys.TimerOk at h9
          obtain ⟨sec, now, st, tm, mn, lm, lt, cn, tr⟩ := x
          dsimp only at h9 hj hfl hex
          subst hfl
          cases e with
          | tick => cases h1; exact ⟨hj, Nat.le_refl _⟩
          | spurious =>
            unfold AtSys.event at h1
            rcases hj with rfl | rfl <;> cases tm <;> dsimp only at h1 <;> cases h1 <;> simp at h9
          | timeout =>
            unfold AtSys.event at h1
            rcases hj with rfl | rfl <;> cases tm <;> dsimp only at h1 <;> (try cases h1) <;> simp at h9
          | main =>
            unfold AtSys.event AtSys.mainStep at h1
            rcases hj with rfl | rfl <;> dsimp only at h1 <;> (try split at h1) <;> cases h1
            exact ⟨.inr rfl, Nat.le_refl _⟩
          | timer =>
            unfold AtSys.event AtSys.timerStep at h1
            rcases hj with rfl | rfl
            · cases tm
              case woken d b =>
                cases b <;> dsimp only [AtMain.past] at h1 h9 <;> split at h1 <;> cases h1 <;> simp [AtTimer.left]
              all_goals
                dsimp only [AtMain.past] at h1 h9
                (try split at h1) <;> cases h1 <;> simp_all [AtTimer.left]
            · rcases hex rfl with rfl | rfl <;> cases h1
        obtain ⟨p, q⟩ := ih x1 x' (hx.event h1) step.1 h2
        refine ⟨?_, q⟩
        have := step.2
        rw [List.count_cons]
        by_cases he : e = .timer
        · subst he; simp at this ⊢; omega
        · have hb : (e == AtEvent.timer) = false := by simpa using he
          simp [he, hb] at this ⊢; omega
    intro es' s' h'
    obtain ⟨p, q⟩ := gen es' s s' hi (.inl hj) h'
    refine ⟨Nat.le_trans p ?_, q⟩
    cases s.timer <;> simp [AtTimer.left]

/-- The hypotheses are met: two seconds, a spurious wake-up, the abort. -/
example : (atRun { seconds := 2 } [.main, .tick, .timer, .timer, .timer, .spurious, .timer, .timer, .tick, .tick, .timeout, .timer, .timer,
    .timer]).map (fun s => (s.trigger, decide (s.main = .transfer))) = some (true, true) := by decide

/-- ... and an end before: the thread is still on its way to the lock when the flag is set, and the
process ends although the notification reached nobody. -/
example : (atRun { seconds := 2 } [.main, .main, .main, .main, .main, .main, .timer, .timer, .timer, .timer, .main]).map
    (fun s => (s.trigger, s.main, s.now)) = some (false, .exited, 0) := by decide

end Wdt
