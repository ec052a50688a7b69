import Verif.Props.SenderThread
/-
C21, continued: how long a sender thread can go on, and what counts as progress.
-/
namespace Wdt

/-- Events that let a thread go on: an abort that is looked at, a block that was sent, something new in a checkpoint,
a command of the receiver after which the thread waits for the next one or sends again, another version. -/
def isHelp : TEnv → Bool
  | .abort _ => true
  | .checkpoint (.set .ok) => true
  | .block code _ => decide (code = eOK)
  | .chunksWait => true
  | .chunksCheckpoint (.set _) => true
  | .cmdWait => true
  | .cmdHeartBeat => true
  | .cmdCheckpoint (.set _) => true
  | .errProcessed => true
  | .versionAgreed => true
  | _ => false

/-- Steps that are at most possible on the way to the next connection or the end. -/
def tRank (s : TState) : Int :=
  match s.state with
  | .finished => 0
  | .processVersionMismatch => 1
  | .readLocalCheckpoint => 1
  | .processAbortCmd => 2
  | .connect => if s.localErr = eOK then 11 else 2
  | .checkForAbort => 3
  | .processDoneCmd => 3
  | .processErrCmd => 3
  | .readReceiverCmd => 4
  | .processWaitCmd => 5
  | .sendDoneCmd => 5
  | .sendBlocks => if s.totalSizeSent then 6 else 8
  | .sendSizeCmd => 7
  | .readFileChunks => 9
  | .sendSettings => 10

/-- The same over all connections that are left. -/
def tPot (m : Int) (s : TState) : Int := 12 * max 0 (m - s.noProgress) + tRank s

set_option maxHeartbeats 1000000 in
theorem tStep_pot {m : Int} {s s' : TState} {e : TEnv} (hm : 1 ≤ m) (hi : TInv m s) (h : tStep m s e = some (.ok s')) :
    tPot m s' + 1 ≤ tPot m s + (if isHelp e then 12 * (m + 1) else 0) := by
  obtain ⟨h1, h2, h3, h4, h5, h6, h7⟩ := hi
  obtain ⟨st, np, le, re, hs, ts⟩ := s
  simp only at h1 h2 h3 h4 h5 h6 h7
  have hcodes : eSOCKET_READ_ERROR ≠ eOK ∧ ePROTOCOL_ERROR ≠ eOK ∧ eSOCKET_WRITE_ERROR ≠ eOK ∧ eABORT ≠ eOK ∧
      eNO_PROGRESS ≠ eOK ∧ eCONN_ERROR ≠ eOK := by decide
  obtain ⟨k1, k2, k3, k4, k5, k6⟩ := hcodes
  cases st <;> cases e <;> simp only [tStep] at h <;> (try (cases h; done)) <;>
    (try (rename_i r; cases r)) <;> (try (rename_i r; cases r)) <;> (try simp only at h) <;> (repeat' split at h) <;>
    (try (cases h; done)) <;>
    (simp only [Option.some.injEq, Except.ok.injEq] at h; subst h) <;>
    (simp only [tPot, tRank, isHelp]) <;> (try grind)

/-- A thread ends by itself: the number of its steps is bounded by the events with which the receiver, the files still to
be sent or an abort let it go on. -/
theorem C21_ends (m : Int) (hm : 1 ≤ m) (es : List TEnv) (r : TState) (h : tRun m {} es = some (.ok r)) :
    (es.length : Int) ≤ 12 * (m + 1) * (1 + (es.countP isHelp : Int)) := by
  have key : ∀ (es : List TEnv) (s : TState), TInv m s → tRun m s es = some (.ok r) →
      (es.length : Int) ≤ tPot m s + 12 * (m + 1) * (es.countP isHelp : Int) := by
    intro es
    induction es with
    | nil =>
      intro s _ _
      have : 0 ≤ tPot m s := by
        unfold tPot tRank
        split <;> (try split) <;> omega
      simpa using this
    | cons e es ih =>
      intro s hi h
      unfold tRun at h
      split at h
      · simp at h
      · simp at h
      · rename_i s1 h1
        have a := tStep_pot hm hi h1
        have b := ih s1 (tStep_inv hm hi h1).1 h
        rw [List.countP_cons, List.length_cons]
        have e1 : 12 * (m + 1) * ((es.countP isHelp + if isHelp e = true then 1 else 0 : Nat) : Int) =
            12 * (m + 1) * (es.countP isHelp : Int) + (if isHelp e = true then 12 * (m + 1) else 0) := by
          split <;> simp [Int.mul_add]
        rw [e1]
        push_cast
        omega
  have := key es {} (TInv.init m hm) h
  have e0 : tPot m {} ≤ 12 * (m + 1) := by
    unfold tPot tRank
    simp only [if_true]
    omega
  rw [Int.mul_add, Int.mul_one]
  omega

/-- From anywhere: once nobody lets it go on, a thread does at most this many steps. -/
theorem C21_ends_from_anywhere (m : Int) (hm : 1 ≤ m) (before after : List TEnv) (s r : TState)
    (h1 : tRun m {} before = some (.ok s)) (h2 : tRun m s after = some (.ok r)) (hh : ∀ e ∈ after, isHelp e = false) :
    (after.length : Int) ≤ 12 * max 0 (m - s.noProgress) + 11 := by
  have i1 := (connections_le hm before {} s (TInv.init m hm) h1).1
  have key : ∀ (es : List TEnv) (s : TState), TInv m s → tRun m s es = some (.ok r) → (∀ e ∈ es, isHelp e = false) →
      (es.length : Int) ≤ tPot m s := by
    intro es
    induction es with
    | nil =>
      intro s _ _ _
      have : 0 ≤ tPot m s := by
        unfold tPot tRank
        split <;> (try split) <;> omega
      simpa using this
    | cons e es ih =>
      intro s hi h hh
      unfold tRun at h
      split at h
      · simp at h
      · simp at h
      · rename_i s1 h1
        have a := tStep_pot hm hi h1
        have b := ih s1 (tStep_inv hm hi h1).1 h fun e' he' => hh e' (List.mem_cons_of_mem _ he')
        rw [hh e (List.mem_cons_self)] at a
        rw [List.length_cons]
        push_cast
        simp at a
        omega
  have := key after s i1 h2 hh
  unfold tPot at this
  have hr : tRank s ≤ 11 := by
    unfold tRank
    split <;> (try split) <;> omega
  omega

example : (fruitless.length : Int) ≤ 12 * (3 + 1) * (1 + (fruitless.countP isHelp : Int)) := by decide

/-! ### What counts as progress

A local checkpoint with the same number of blocks as the last one counts as progress if it names another block and says
that bytes of that have arrived.  Whether the thread has sent such a block is not looked at. -/

/-- Answers of a history to local checkpoints that come one after the other, nothing being sent in between. -/
def cpAnswers : Hist → List Checkpoint → Except Fault (List CpRes × Hist)
  | h, [] => .ok ([], h)
  | h, cp :: cps =>
    match setCheckpoint h cp false with
    | .error f => .error f
    | .ok (r, h', _) =>
      match cpAnswers h' cps with
      | .error f => .error f
      | .ok (rs, h'') => .ok (r :: rs, h'')

/-- One byte of block 0 of file 0, or of file 1. -/
def madeUp (port : Nat) (i : Nat) : Checkpoint :=
  { port := port, numBlocks := 0, lastBlockReceivedBytes := 1, lastBlockSeqId := i % 2, lastBlockOffset := 0, hasSeqId := true }

/-- The results of local checkpoints in a run. -/
def cpResults : List TEnv → List CpRes
  | [] => []
  | .checkpoint (.set r) :: es => r :: cpResults es
  | _ :: es => cpResults es

/-- A connection, the checkpoint of which counts as progress, and which breaks before the settings are sent. -/
def vainCycle : List TEnv := [.connect eOK eOK false, .checkpoint (.set .ok), .settings false false]

theorem vain_cycles {m : Int} (hm : 1 ≤ m) (k : Nat) : ∀ s : TState, s.state = .connect → s.localErr = eSOCKET_WRITE_ERROR → s.noProgress = 0 →
    ∃ r, tRun m s ((List.replicate k vainCycle).flatten) = some (.ok r) ∧ r.state = .connect ∧
      connections m s ((List.replicate k vainCycle).flatten) = k := by
  induction k with
  | zero => intro s h1 _ _; exact ⟨s, rfl, h1, rfl⟩
  | succ k ih =>
    rintro ⟨st, np, le, re, hs, ts⟩ h1 h2 h3
    simp only at h1 h2 h3
    subst h1 h2 h3
    obtain ⟨r, g1, g2, g3⟩ := ih { state := .connect, noProgress := 0, localErr := eSOCKET_WRITE_ERROR, remoteErr := re, hasSocket := true, totalSizeSent := false } rfl rfl rfl
    have hn : ¬ (m ≤ 0) := by omega
    refine ⟨r, ?_, g2, ?_⟩
    · simp only [List.replicate_succ, List.flatten_cons, vainCycle, List.cons_append, List.nil_append, tRun, tStep]
      simp [hn, eOK, eABORT, eSOCKET_WRITE_ERROR]
      exact g1
    · simp only [List.replicate_succ, List.flatten_cons, vainCycle, List.cons_append, List.nil_append, connections, tStep]
      simp [hn, eOK, eABORT, eSOCKET_WRITE_ERROR, connected]
      have : connections m { state := .connect, noProgress := 0, localErr := eSOCKET_WRITE_ERROR, remoteErr := re, hasSocket := true, totalSizeSent := false } ((List.replicate k vainCycle).flatten) = k := g3
      simp only [vainCycle, eOK, eSOCKET_WRITE_ERROR] at this
      omega

theorem made_up_answers (p k : Nat) : ∀ (i : Nat) (h : Hist), h.history = [] → h.lastCp = none ∨ (∃ j, h.lastCp = some (madeUp p j) ∧ j % 2 ≠ i % 2) →
    ∃ h', cpAnswers h ((List.range' i k).map (madeUp p)) = .ok (List.replicate k .ok, h') ∧ h'.history = [] ∧ (k ≠ 0 → h'.numAcked = 0) := by
  induction k with
  | zero => intro i h hh _; exact ⟨h, rfl, hh, fun a => absurd rfl a⟩
  | succ k ih =>
    intro i h hh hl
    have hv : validateCp h.lastCp (madeUp p i) false = .ok .ok := by
      rcases hl with hl | ⟨j, hl, hj⟩
      · rw [hl]; rfl
      · rw [hl]
        unfold validateCp madeUp
        have : ¬ ((i : Int) % 2 = (j : Int) % 2) := by omega
        simp [this]
    have hs : setCheckpoint h (madeUp p i) false = .ok (.ok, { h with globalCp := h.globalCp || false, lastCp := some (madeUp p i), numAcked := 0, history := [], stats := h.stats }, []) := by
      unfold setCheckpoint
      rw [hv, hh]
      simp [madeUp, failBack]
    obtain ⟨h', g1, g2, g3⟩ := ih (i + 1) { h with globalCp := h.globalCp || false, lastCp := some (madeUp p i), numAcked := 0, history := [], stats := h.stats } rfl
      (.inr ⟨i, rfl, by omega⟩)
    refine ⟨h', ?_, g2, fun _ => ?_⟩
    · rw [List.range'_succ, List.map_cons, cpAnswers, hs]
      dsimp only
      rw [g1]
      rfl
    · cases k with
      | zero =>
        simp only [List.range'_zero, List.map_nil, cpAnswers, Except.ok.injEq, Prod.mk.injEq] at g1
        rw [← g1.2]
      | succ k => exact g3 (by omega)

theorem cpResults_vain (k : Nat) : cpResults ((List.replicate k vainCycle).flatten) = List.replicate k .ok := by
  induction k with
  | zero => rfl
  | succ k ih => rw [List.replicate_succ, List.flatten_cons, List.replicate_succ]; simp [vainCycle, cpResults]; exact ih

/-- So a receiver that makes up what has arrived keeps a sender thread connecting as often as it likes, though the
thread has sent nothing and nothing is acknowledged. -/
theorem C21_violated_made_up (m : Int) (hm : 1 ≤ m) (p k : Nat) : ∃ es r rs h,
    tRun m {} es = some (.ok r) ∧ r.state ≠ .finished ∧ k ≤ connections m {} es ∧
    cpAnswers {} ((List.range' 0 k).map (madeUp p)) = .ok (rs, h) ∧ cpResults es = rs ∧ h.history = [] ∧ h.numAcked = 0 := by
  obtain ⟨r, g1, g2, g3⟩ := vain_cycles hm k { hasSocket := true, localErr := eSOCKET_WRITE_ERROR } rfl rfl rfl
  obtain ⟨h, a1, a2, a3⟩ := made_up_answers p k 0 {} rfl (.inl rfl)
  refine ⟨.connect eOK eOK false :: .settings false false :: (List.replicate k vainCycle).flatten, r, _, h, ?_, ?_, ?_, a1, ?_, a2, ?_⟩
  · have hn : ¬ (m ≤ 0) := by omega
    simp only [tRun, tStep]
    simp [hn, eOK, eABORT]
    exact g1
  · rw [g2]; simp
  · have hn : ¬ (m ≤ 0) := by omega
    simp only [connections, tStep]
    simp [hn, eOK, eABORT, connected]
    simp only [eOK] at g3
    omega
  · exact cpResults_vain k
  · cases k with
    | zero =>
      simp only [List.range'_zero, List.map_nil, cpAnswers, Except.ok.injEq, Prod.mk.injEq] at a1
      rw [← a1.2]
    | succ k => exact a3 (by omega)

end Wdt
