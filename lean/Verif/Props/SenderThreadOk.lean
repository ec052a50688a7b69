import Verif.Model.SenderThread
import Mathlib.Data.List.Induction
/-
C22, the part of a single thread: a thread ends without error only after it ran out
of blocks, said DONE and was told DONE.
-/
namespace Wdt

/-- What may happen between saying DONE and being told DONE. -/
def isWaiting : TEnv → Bool
  | .cmdHeartBeat | .cmdWait | .waitProcessed | .cmdCheckpoint (.set _) => true
  | _ => false

/-- The inputs of the thread end with: no block left, DONE written, and then only
waiting. -/
def SaidDone (es : List TEnv) : Prop :=
  ∃ pre wait, es = pre ++ [.noSource, .doneWritten true] ++ wait ∧ ∀ e ∈ wait, isWaiting e = true

theorem SaidDone.snoc {es : List TEnv} {e : TEnv} (h : SaidDone es) (he : isWaiting e = true) : SaidDone (es ++ [e]) := by
  obtain ⟨p, w, rfl, hw⟩ := h
  refine ⟨p, w ++ [e], by simp, ?_⟩
  intro x hx
  rcases List.mem_append.1 hx with h | h
  · exact hw x h
  · rw [List.mem_singleton.1 h]; exact he

/-- What the state says about the inputs so far. -/
structure OkInv (s : TState) (es : List TEnv) : Prop where
  fin : s.state = .finished → s.localErr = eOK → ∃ l, SaidDone l ∧ es = l ++ [.cmdDone, .endOfStream eOK]
  done : s.state = .processDoneCmd → ∃ l, SaidDone l ∧ es = l ++ [.cmdDone]
  read : s.state = .readReceiverCmd ∨ s.state = .processWaitCmd → SaidDone es
  sent : s.state = .sendDoneCmd → ∃ l, es = l ++ [.noSource]
  vm : s.state = .processVersionMismatch → s.localErr ≠ eOK

set_option maxHeartbeats 2000000 in
theorem OkInv.step {m : Int} {s s' : TState} {e : TEnv} {es : List TEnv} (hi : OkInv s es)
    (h : tStep m s e = some (.ok s')) : OkInv s' (es ++ [e]) := by
  obtain ⟨h1, h2, h3, h4, h5⟩ := hi
  obtain ⟨st, np, le, re, hs, ts⟩ := s
  simp only at h1 h2 h3 h4 h5
  have hcodes : eSOCKET_READ_ERROR ≠ eOK ∧ ePROTOCOL_ERROR ≠ eOK ∧ eSOCKET_WRITE_ERROR ≠ eOK ∧ eABORT ≠ eOK ∧
      eNO_PROGRESS ≠ eOK ∧ eCONN_ERROR ≠ eOK := by decide
  obtain ⟨k1, k2, k3, k4, k5, k6⟩ := hcodes
  cases st <;> cases e <;> simp only [tStep] at h <;> (try (cases h; done)) <;>
    (try (rename_i r; cases r)) <;> (try simp only at h) <;> (repeat' split at h) <;>
    (try (cases h; done)) <;>
    (simp only [Option.some.injEq, Except.ok.injEq] at h; subst h; constructor) <;> (try (simp_all; done))
  all_goals try (intro _; exact (h3 (by simp)).snoc rfl)
  · rintro -
    obtain ⟨l, rfl⟩ := h4 rfl
    exact ⟨l, [], by simp, by simp⟩
  · rintro - -
    obtain ⟨l, hl, rfl⟩ := h2 rfl
    exact ⟨l, hl, by simp [eOK]⟩
  · rename_i c hc
    exact absurd hc (Nat.succ_ne_zero c)

/-- **C22**, one thread: a thread that ends without an error found no block left, then
said DONE, then did nothing but wait, then was told DONE, and then saw the receiver
close the connection. -/
theorem C22_thread_ok_means_done (m : Int) (es : List TEnv) (r : TState) (h : tRun m {} es = some (.ok r))
    (hf : r.state = .finished) (hok : r.localErr = eOK) :
    ∃ pre wait, es = pre ++ [.noSource, .doneWritten true] ++ wait ++ [.cmdDone, .endOfStream eOK] ∧
      ∀ e ∈ wait, isWaiting e = true := by
  have key : ∀ (es : List TEnv) (s : TState) (b : List TEnv), OkInv s b → tRun m s es = some (.ok r) →
      OkInv r (b ++ es) := by
    intro es
    induction es with
    | nil =>
      intro s b hi h
      simp only [tRun, Option.some.injEq, Except.ok.injEq] at h
      subst h
      simpa using hi
    | cons e es ih =>
      intro s b hi h
      unfold tRun at h
      split at h
      · simp at h
      · simp at h
      · rename_i s1 h1
        have := ih s1 _ (hi.step h1) h
        simpa using this
  have i0 : OkInv {} [] := by constructor <;> simp
  have := key es {} [] i0 h
  obtain ⟨l, ⟨p, w, rfl, hw⟩, e⟩ := this.fin hf hok
  exact ⟨p, w, by simpa using e, hw⟩

/-- A thread that reconnects once and then ends without error. -/
example : tRun 3 {} [.connect 0 0 false, .settings true false, .block 6 false, .gotAbort false,
    .connect 0 0 false, .checkpoint (.set .ok), .settings true false, .block 0 false, .noSource, .doneWritten true,
    .cmdWait, .waitProcessed, .cmdHeartBeat, .cmdDone, .endOfStream 0] =
    some (.ok { state := .finished, localErr := eOK, hasSocket := true }) := by decide

end Wdt
