import Verif.Model.SenderThread
/-
C21: a sender thread gives up when reconnecting brings no progress.
-/
namespace Wdt

/-- A connection was made in this step. -/
def connected (s s' : TState) : Bool :=
  decide (s.state = .connect) && (decide (s'.state = .readLocalCheckpoint) || decide (s'.state = .sendSettings))

/-- Number of connections made in a run. -/
def connections (maxRetries : Int) : TState → List TEnv → Nat
  | _, [] => 0
  | s, e :: es =>
    match tStep maxRetries s e with
    | some (.ok s') => (if connected s s' then 1 else 0) + connections maxRetries s' es
    | _ => 0

/-- The receiver acknowledged something new. -/
def isProgress (e : TEnv) : Bool := decide (e = .checkpoint (.set .ok))

/-- All threads agreed on another protocol version (at most once per transfer). -/
def isAgreement (e : TEnv) : Bool := decide (e = .versionAgreed)

/-- Facts about a thread after any number of steps. -/
structure TInv (maxRetries : Int) (s : TState) : Prop where
  nonneg : 0 ≤ s.noProgress
  first : s.state = .connect → s.localErr = eOK → s.noProgress = 0 ∧ s.hasSocket = false
  abortErr : s.state = .checkForAbort → s.localErr ≠ eOK
  mismatch : s.state = .processVersionMismatch → s.localErr = eABORT
  socket : s.state = .connect ∨ s.state = .processVersionMismatch ∨ s.state = .finished ∨ s.hasSocket = true
  budget : s.hasSocket = true ∨ s.noProgress < maxRetries ∨ s.state = .finished
  reading : s.state = .readLocalCheckpoint → s.noProgress < maxRetries

/-- Connections still possible without progress. -/
def allowance (maxRetries : Int) (s : TState) : Int :=
  match s.state with
  | .finished => 0
  | .connect => (if s.localErr = eOK then 1 else 0) + max 0 (maxRetries - s.noProgress)
  | .readLocalCheckpoint => maxRetries - s.noProgress - 1
  | .processVersionMismatch => max 0 (maxRetries - s.noProgress - 1)
  | _ => max 0 (maxRetries - s.noProgress)

theorem TInv.init (m : Int) (hm : 1 ≤ m) : TInv m {} := by
  constructor <;> simp
  omega

set_option maxHeartbeats 1000000 in
theorem tStep_inv {m : Int} {s s' : TState} {e : TEnv} (hm : 1 ≤ m) (hi : TInv m s)
    (h : tStep m s e = some (.ok s')) :
    TInv m s' ∧ (if connected s s' then 1 else 0) + allowance m s' ≤
      allowance m s + (if isProgress e then m else 0) + (if isAgreement e then 1 else 0) := by
  obtain ⟨h1, h2, h3, h4, h5, h6, h7⟩ := hi
  obtain ⟨st, np, le, re, hs, ts⟩ := s
  simp only at h1 h2 h3 h4 h5 h6 h7
  have hcodes : eSOCKET_READ_ERROR ≠ eOK ∧ ePROTOCOL_ERROR ≠ eOK ∧ eSOCKET_WRITE_ERROR ≠ eOK ∧ eABORT ≠ eOK ∧
      eNO_PROGRESS ≠ eOK ∧ eCONN_ERROR ≠ eOK := by decide
  obtain ⟨k1, k2, k3, k4, k5, k6⟩ := hcodes
  have hmi : ∀ a b : ErrCode, b ≠ eOK → moreInteresting a b ≠ eOK := by
    intro a b hb h
    have h' : max a b = 0 := h
    exact hb (Nat.le_zero.1 (h' ▸ Nat.le_max_right a b))
  cases st <;> cases e <;> simp only [tStep] at h <;> (try (cases h; done)) <;>
    (try (rename_i r; cases r)) <;> (try simp only at h) <;> (repeat' split at h) <;>
    (try (cases h; done)) <;>
    (simp only [Option.some.injEq, Except.ok.injEq] at h; subst h) <;>
    refine ⟨⟨?_, ?_, ?_, ?_, ?_, ?_, ?_⟩, ?_⟩ <;>
    (try simp only [allowance, connected, isProgress, isAgreement]) <;> (try grind)

theorem connections_le {m : Int} (hm : 1 ≤ m) (es : List TEnv) : ∀ (s : TState) (r : TState), TInv m s →
    tRun m s es = some (.ok r) →
    TInv m r ∧ (connections m s es : Int) + allowance m r ≤
      allowance m s + m * (es.countP isProgress : Int) + (es.countP isAgreement : Int) := by
  induction es with
  | nil =>
    intro s r hi h
    simp only [tRun, Option.some.injEq, Except.ok.injEq] at h
    subst h
    refine ⟨hi, ?_⟩
    simp [connections]
  | cons e es ih =>
    intro s r hi h
    unfold tRun at h
    split at h
    · simp at h
    · simp at h
    · rename_i s1 h1
      obtain ⟨i1, b1⟩ := tStep_inv hm hi h1
      obtain ⟨i2, b2⟩ := ih s1 r i1 h
      refine ⟨i2, ?_⟩
      unfold connections
      rw [h1]
      simp only [List.countP_cons]
      have e1 : m * ((es.countP isProgress + if isProgress e then 1 else 0 : Nat) : Int) =
          m * (es.countP isProgress : Int) + (if isProgress e then m else 0) := by
        split <;> simp [Int.mul_add]
      have e2 : ((if connected s s1 then 1 else 0 : Nat) : Int) = if connected s s1 then 1 else 0 := by
        split <;> rfl
      have e3 : ((if isAgreement e then 1 else 0 : Nat) : Int) = if isAgreement e then 1 else 0 := by
        split <;> rfl
      rw [e1, Int.natCast_add, Int.natCast_add, e2, e3]
      omega

theorem allowance_nonneg {m : Int} {s : TState} (hi : TInv m s) : 0 ≤ allowance m s := by
  unfold allowance
  split
  · exact Int.le_refl _
  · split <;> omega
  · have := hi.reading (by assumption); omega
  · omega
  · omega

/-- Without progress a thread makes at most `max_transfer_retries + 1` connections, and
each acknowledged progress allows at most `max_transfer_retries` more.  (Each agreement
on another protocol version allows one more; there is at most one per transfer.) -/
theorem C21_bounded_reconnects_partial (m : Int) (hm : 1 ≤ m) (es : List TEnv) (r : TState)
    (h : tRun m {} es = some (.ok r)) :
    (connections m {} es : Int) ≤ 1 + m * (1 + (es.countP isProgress : Int)) + (es.countP isAgreement : Int) := by
  obtain ⟨i, b⟩ := connections_le hm es {} r (TInv.init m hm) h
  have := allowance_nonneg i
  have e : allowance m {} = 1 + m := by
    unfold allowance
    simp only [eOK, if_true]
    omega
  rw [e] at b
  rw [Int.mul_add, Int.mul_one]
  omega

/-- The same from any point of a run: once the receiver acknowledges nothing new, the
number of further connections is bounded by what is left of the allowance. -/
theorem C21_gives_up_from_anywhere (m : Int) (hm : 1 ≤ m) (before after : List TEnv) (s r : TState)
    (h1 : tRun m {} before = some (.ok s)) (h2 : tRun m s after = some (.ok r))
    (hnp : ∀ e ∈ after, isProgress e = false) (hna : ∀ e ∈ after, isAgreement e = false) :
    (connections m s after : Int) ≤ 1 + max 0 (m - s.noProgress) := by
  have i1 := (connections_le hm before {} s (TInv.init m hm) h1).1
  obtain ⟨i2, b⟩ := connections_le hm after s r i1 h2
  have a0 := allowance_nonneg i2
  have c1 : after.countP isProgress = 0 := by
    rw [List.countP_eq_zero]; intro e he; simp [hnp e he]
  have c2 : after.countP isAgreement = 0 := by
    rw [List.countP_eq_zero]; intro e he; simp [hna e he]
  rw [c1, c2] at b
  have : allowance m s ≤ 1 + max 0 (m - s.noProgress) := by
    unfold allowance
    split
    · omega
    · split <;> omega
    · omega
    · omega
    · omega
  simp only [Int.natCast_zero, Int.mul_zero] at b
  omega

/-- What the counter does: every checkpoint with something new resets it, every
unreadable or stale one increases it; nothing else touches it. -/
theorem C21_counter (m : Int) (s s' : TState) (e : TEnv) (h : tStep m s e = some (.ok s')) :
    (e = .checkpoint (.set .ok) → s'.noProgress = 0) ∧
    (e = .checkpoint (.set .noProgress) ∨ e = .checkpoint .readFailed → s'.noProgress = s.noProgress + 1) ∧
    (s'.noProgress = s.noProgress ∨ e = .checkpoint (.set .ok) ∨ e = .checkpoint (.set .noProgress) ∨
      e = .checkpoint .readFailed) := by
  obtain ⟨st, np, le, re, hs, ts⟩ := s
  cases st <;> cases e <;> simp only [tStep] at h <;> (try (cases h; done)) <;>
    (try (rename_i r; cases r)) <;> (try simp only at h) <;> (repeat' split at h) <;>
    (try (cases h; done)) <;>
    (simp only [Option.some.injEq, Except.ok.injEq] at h; subst h) <;> simp_all

/-- With the counter used up the next attempt to connect ends the thread with
`NO_PROGRESS` (or with the error of the socket if that is not retryable). -/
theorem C21_gives_up (m : Int) (s : TState) (sockErr code : ErrCode) (vm : Bool) (hs : s.state = .connect)
    (hsock : s.hasSocket = true) (hn : m ≤ s.noProgress) :
    tStep m s (.connect sockErr code vm) =
      some (.ok { s with localErr := (if sockErr = eOK then eNO_PROGRESS else sockErr), state := .finished }) := by
  obtain ⟨st, np, le, re, hs', ts⟩ := s
  simp only at hs hsock hn
  subst hs hsock
  simp only [tStep]
  by_cases h : sockErr = eOK
  · simp [h, hn]
  · simp [h]

/-- Every connection except the first one begins with the receiver's checkpoint: no
reconnect bypasses the counter. -/
theorem C21_reconnect_reads_checkpoint (m : Int) (hm : 1 ≤ m) (es : List TEnv) (s s' : TState) (e : TEnv)
    (h : tRun m {} es = some (.ok s)) (h' : tStep m s e = some (.ok s')) (hc : connected s s' = true)
    (hne : s.hasSocket = true) : s'.state = .readLocalCheckpoint := by
  have i := (connections_le hm es {} s (TInv.init m hm) h).1
  unfold connected at hc
  simp only [Bool.and_eq_true, Bool.or_eq_true, decide_eq_true_eq] at hc
  rcases hc.2 with h2 | h2
  · exact h2
  · exfalso
    obtain ⟨st, np, le, re, hs', ts⟩ := s
    simp only at hne hc
    obtain ⟨rfl, _⟩ := hc
    subst hne
    have hle : le ≠ eOK := by
      intro hle
      have := (i.first rfl hle).2
      simp at this
    cases e <;> simp only [tStep] at h' <;> (try (cases h'; done)) <;> (repeat' split at h') <;>
      (try (cases h'; done)) <;>
      (simp only [Option.some.injEq, Except.ok.injEq] at h'; subst h') <;> simp_all

/-- With `max_transfer_retries ≥ 1` a sender thread never fails its consistency check
and never uses a socket it does not have. -/
theorem C21_thread_no_fault (m : Int) (hm : 1 ≤ m) (es : List TEnv) (f : Fault) : tRun m {} es ≠ some (.error f) := by
  have key : ∀ (es : List TEnv) (s : TState), TInv m s → tRun m s es ≠ some (.error f) := by
    intro es
    induction es with
    | nil => intro s _ h; simp [tRun] at h
    | cons e es ih =>
      intro s hi h
      unfold tRun at h
      split at h
      · simp at h
      · rename_i f' hf
        obtain ⟨h1, h2, h3, h4, h5, h6, h7⟩ := hi
        obtain ⟨st, np, le, re, hs, ts⟩ := s
        simp only at h1 h2 h3 h4 h5 h6 h7
        cases st <;> cases e <;> simp only [tStep] at hf <;> (try (cases hf; done)) <;>
          (try (rename_i r; cases r)) <;> (try simp only at hf) <;> (repeat' split at hf) <;>
          (try (cases hf; done)) <;> simp_all <;> omega
      · rename_i s1 h1
        exact ih s1 (tStep_inv hm hi h1).1 h
  exact key es {} (TInv.init m hm)

/-- With `max_transfer_retries = 0` the very first attempt to connect reads through a
null pointer (the log message at SenderThread.cpp:121-123). -/
theorem C21_zero_retries_crashes : tRun 0 {} [.connect eOK eOK false] = some (.error .ub) := by decide

/-- Three fruitless reconnects, then the thread ends. -/
def fruitless : List TEnv :=
  [.connect 0 0 false, .settings true false, .block 6 false, .gotAbort false,
   .connect 0 0 false, .checkpoint .readFailed,
   .connect 0 0 false, .checkpoint (.set .noProgress), .settings true false, .block 6 false, .gotAbort false,
   .connect 0 0 false, .checkpoint (.set .noProgress), .settings true false, .noSource, .doneWritten true, .cmdError 5,
   .connect 0 0 false]

example : tRun 3 {} fruitless =
    some (.ok { state := .finished, noProgress := 3, localErr := eNO_PROGRESS, hasSocket := true }) := by decide

example : connections 3 {} fruitless = 4 := by decide

end Wdt
