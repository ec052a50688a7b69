import Verif.Model.CmdMain
import Verif.Model.ResourceController
/-
Property C91: the program does what the command line asks for, and its exit status says whether
that succeeded.
-/
namespace Wdt

/-- Codes that the parts answer: those of ErrorCodes.h, and bytes received from a peer, which
may be sign-extended to 32 bits (see Model/ErrorCode).  None is a multiple of 256 other than OK. -/
structure CmdWorld.Codes (w : CmdWorld) : Prop where
  init : w.recvInit % 256 = 0 → w.recvInit = eOK
  start : w.recvStart % 256 = 0 → w.recvStart = eOK
  recv : w.recvCode % 256 = 0 → w.recvCode = eOK
  forever : w.forever % 256 = 0 → w.forever = eOK
  send : w.sendCode % 256 = 0 → w.sendCode = eOK

/-- The program did what it does without an error: it printed what was asked for; the log was in
order; the sender reported success; the receiver was set up (possibly on fewer ports, if that is
accepted) and left to another process, or started and reported success. -/
def CmdArgs.Success (c : CmdArgs) (w : CmdWorld) : CmdDid → Prop
  | .info => True
  | .refused => False
  | .crashed => False
  | .parsedLog => w.logOk = true
  | .noReceiver => False
  | .detached => w.forked = .parent ∧ (w.recvInit = eOK ∨ w.recvInit = eFEWER_PORTS ∧ c.treatFewer = false)
  | .received => (w.recvInit = eOK ∨ w.recvInit = eFEWER_PORTS ∧ c.treatFewer = false) ∧
    if c.daemon then w.forever = eOK else w.recvStart = eOK ∧ w.recvCode = eOK
  | .sent _ _ => w.sendCode = eOK

theorem receive_status (c : CmdArgs) (w : CmdWorld) (hw : w.Codes) : (c.receive w).2 = 0 ↔ c.Success w (c.receive w).1 := by
  unfold CmdArgs.receive
  split
  · exact iff_of_false (show ¬(exitStatus eFEWER_PORTS = 0) by decide) (fun h => h)
  · rename_i h1
    split
    · rename_i h2
      exact iff_of_false (fun h => h2.2 (hw.init h)) (fun h => h)
    · rename_i h2
      have hi : w.recvInit = eOK ∨ w.recvInit = eFEWER_PORTS ∧ c.treatFewer = false := by
        by_cases h : w.recvInit = eFEWER_PORTS
        · refine Or.inr ⟨h, ?_⟩
          cases ht : c.treatFewer
          · rfl
          · exact absurd ⟨h, ht⟩ h1
        · exact Or.inl (Classical.not_not.1 fun h' => h2 ⟨h, h'⟩)
      split
      · rename_i h3
        refine iff_of_false (by decide) ?_
        rintro ⟨hp, _⟩
        rw [hp] at h3; exact absurd h3.2 (by decide)
      · split
        · rename_i h4
          exact iff_of_true rfl ⟨h4.2, hi⟩
        · cases hd : c.daemon
          · simp only [Bool.false_eq_true, if_false]
            split
            · rename_i h5
              refine ⟨fun h => ⟨hi, by rw [hd]; exact ⟨h5, hw.recv h⟩⟩, fun h => ?_⟩
              have := h.2; rw [hd] at this
              show exitStatus w.recvCode = 0
              rw [this.2]; rfl
            · rename_i h5
              refine iff_of_false (fun h => h5 (hw.start h)) ?_
              rintro ⟨_, h⟩
              rw [hd] at h; exact h5 h.1
          · simp only [if_true]
            refine ⟨fun h => ⟨hi, by rw [hd]; exact hw.forever h⟩, fun h => ?_⟩
            have := h.2; rw [hd] at this
            simp only [if_true] at this
            show exitStatus w.forever = 0
            rw [this]; rfl

theorem go_status (c : CmdArgs) (w : CmdWorld) (hw : w.Codes) (bad : Bool) : (c.go w bad).2 = 0 ↔ c.Success w (c.go w bad).1 := by
  unfold CmdArgs.go
  simp only
  split
  · exact iff_of_false (show ¬(exitStatus eURI_PARSE_ERROR = 0) by decide) (fun h => h)
  · generalize (if (!bad && c.args.length == 1) = true then c.stdin else c.url) = url
    split
    · exact iff_of_true rfl trivial
    · split
      · cases h : w.logOk
        · exact iff_of_false (by decide) (fun h' => by rw [show w.logOk = true from h'] at h; cases h)
        · exact iff_of_true rfl h
      · split
        · exact iff_of_false (show ¬(exitStatus eERROR = 0) by decide) (fun h => h)
        · split
          · exact receive_status c w hw
          · unfold CmdArgs.send
            split
            · exact iff_of_false (by decide) (fun h => h)
            · exact ⟨fun h => hw.send h, fun h => by show exitStatus w.sendCode = 0; rw [show w.sendCode = eOK from h]; rfl⟩

/-- C91: the exit status is 0 exactly if the program did what it had to do without an error; for a
sender or a receiver in the foreground, exactly if its report says success. -/
theorem C91_exit_status (c : CmdArgs) (w : CmdWorld) (hw : w.Codes) : (c.main w).2 = 0 ↔ c.Success w (c.main w).1 := by
  unfold CmdArgs.main
  split
  · exact iff_of_true rfl trivial
  · exact iff_of_true rfl trivial
  · split
    · exact iff_of_false (by decide) (fun h => h)
    · exact go_status c w hw true
  · split
    · exact iff_of_false (by decide) (fun h => h)
    · exact go_status c w hw false

/-- The program did something as a sender. -/
def CmdDid.isSender : CmdDid → Bool
  | .sent _ _ => true
  | .crashed => true
  | _ => false

/-- The program did something as a receiver. -/
def CmdDid.isReceiver : CmdDid → Bool
  | .noReceiver => true
  | .detached => true
  | .received => true
  | _ => false

/-- C91, which side: if the flags are well-formed, the program is a receiver only if there is no
"-", no url and no destination; it is a sender only if there is one of them, and a url read from
the standard input goes before the others.  Missing: bad flags that are to be ignored
(`C91_violated_bad_flag`). -/
theorem C91_side_partial (c : CmdArgs) (w : CmdWorld) (hf : c.flags ≠ .bad) :
    ((c.main w).1.isReceiver = true → c.args = [] ∧ c.url = [] ∧ c.destination = []) ∧
    ((c.main w).1.isSender = true → c.args = [[45]] ∧ c.stdin ≠ [] ∨ c.args = [] ∧ (c.url ≠ [] ∨ c.destination ≠ [])) ∧
    (∀ url host, (c.main w).1 = .sent url host → url = (if c.args = [[45]] then c.stdin else c.url) ∧ host = c.destination ∧ (url ≠ [] → w.urlCode url = eOK)) := by
  have hi : ∀ d : CmdDid, d = .info ∨ d = .refused ∨ d = .parsedLog → (d.isReceiver = true → c.args = [] ∧ c.url = [] ∧ c.destination = []) ∧
      (d.isSender = true → c.args = [[45]] ∧ c.stdin ≠ [] ∨ c.args = [] ∧ (c.url ≠ [] ∨ c.destination ≠ [])) ∧
      (∀ url host, d = .sent url host → url = (if c.args = [[45]] then c.stdin else c.url) ∧ host = c.destination ∧ (url ≠ [] → w.urlCode url = eOK)) := by
    rintro d (rfl | rfl | rfl) <;> exact ⟨(fun h => by cases h), (fun h => by cases h), (fun _ _ h => by cases h)⟩
  unfold CmdArgs.main
  split
  · exact hi _ (Or.inl rfl)
  · exact hi _ (Or.inl rfl)
  · rename_i h; exact absurd h hf
  · split
    · exact hi _ (Or.inr (Or.inl rfl))
    · rename_i hargs
      have hargs' : c.args = [] ∨ c.args = [[45]] := by
        cases ha : c.args with
        | nil => exact Or.inl rfl
        | cons a l =>
          refine Or.inr (Classical.not_not.1 fun hne => hargs ?_)
          rw [ha]
          cases l with
          | nil => exact Or.inr ⟨rfl, hne⟩
          | cons b l => exact Or.inl (by simp)
      have hone : (c.args.length == 1) = decide (c.args = [[45]]) := by
        rcases hargs' with h | h <;> rw [h] <;> decide
      unfold CmdArgs.go
      simp only [Bool.not_false, Bool.true_and, hone, decide_eq_true_eq, Bool.and_eq_true]
      split
      · exact hi _ (Or.inr (Or.inl rfl))
      · rename_i hin
        generalize hu : (if c.args = [[45]] then c.stdin else c.url) = u at hi ⊢
        split
        · exact hi _ (Or.inl rfl)
        · split
          · exact hi _ (Or.inr (Or.inr rfl))
          · split
            · exact hi _ (Or.inr (Or.inl rfl))
            · rename_i hurl
              split
              · rename_i hrec
                refine ⟨fun _ => ?_, fun h => ?_, fun url host h => ?_⟩
                · rw [← hu] at hrec
                  rcases hargs' with h | h
                  · rw [if_neg (by rw [h]; decide)] at hrec; exact ⟨h, hrec.2, hrec.1⟩
                  · rw [if_pos h] at hrec
                    exact absurd ⟨h, by rw [hrec.2]; rfl⟩ hin
                · exfalso
                  revert h
                  unfold CmdArgs.receive
                  (repeat' split) <;> simp [CmdDid.isSender]
                · exfalso
                  revert h
                  unfold CmdArgs.receive
                  (repeat' split) <;> simp
              · rename_i hsend
                have hw : c.args = [[45]] ∧ c.stdin ≠ [] ∨ c.args = [] ∧ (c.url ≠ [] ∨ c.destination ≠ []) := by
                  rw [← hu] at hsend
                  rcases hargs' with h | h
                  · rw [if_neg (by rw [h]; decide)] at hsend
                    refine Or.inr ⟨h, ?_⟩
                    by_cases hd : c.destination = []
                    · exact Or.inl fun hu => hsend ⟨hd, hu⟩
                    · exact Or.inr hd
                  · exact Or.inl ⟨h, fun h' => hin ⟨h, by rw [h']; rfl⟩⟩
                refine ⟨fun h => ?_, fun _ => hw, fun url host h => ?_⟩
                · exfalso
                  revert h
                  unfold CmdArgs.send
                  split <;> simp [CmdDid.isReceiver]
                · unfold CmdArgs.send at h
                  split at h
                  · cases h
                  · cases h
                    exact ⟨rfl, rfl, fun hne => Classical.not_not.1 fun h' => hurl ⟨hne, h'⟩⟩

/-- The parts answer such codes, and a transfer fails: exit status 5. -/
example : ({ sendCode := eSOCKET_READ_ERROR } : CmdWorld).Codes ∧
    (({ args := [[45]], stdin := [119] } : CmdArgs).main { sendCode := eSOCKET_READ_ERROR }) = (.sent [119] [], 5) := by
  refine ⟨⟨by decide, by decide, by decide, by decide, by decide⟩, by decide⟩

/-- A url read from the standard input, with a flag for another. -/
example : (({ args := [[45]], stdin := [119], url := [120], destination := [104] } : CmdArgs).main { }) = (.sent [119] [104], 0) ∧
    (({ fork := true } : CmdArgs).main { forked := .parent }) = (.detached, 0) ∧
    (({ } : CmdArgs).main { recvInit := eFEWER_PORTS }) = (.received, 0) ∧
    (({ treatFewer := true } : CmdArgs).main { recvInit := eFEWER_PORTS }) = (.noReceiver, 19) := by decide

/-- C91 violated: with `-exit_on_bad_flags=false` an unknown flag turns a sender that reads the
url from its standard input into a receiver. -/
theorem C91_violated_bad_flag : (({ flags := .bad, exitOnBad := false, args := [[45]], stdin := [119] } : CmdArgs).main { }) = (.received, 0) := by decide

/-- C91, a sender: what `wdtSend` returns is the code of the report of a transfer that was
run, if it is success; so exit status 0 of a sender means that there was a transfer and its
report says success (what that means is C22, C70 and C72). -/
theorem C91_sender_exit (c : CmdArgs) (w : CmdWorld) (hw : w.Codes) (s : RCtl) (name id : Nat) (terminate same : Bool) (initCode result : ErrCode)
    (hs : w.sendCode = (s.wdtSend name id terminate same initCode result).2) (url host : Bytes) (hd : (c.main w).1 = .sent url host)
    (h0 : (c.main w).2 = 0) : initCode = eOK ∧ result = eOK ∧ (s.createWdtSender name id terminate same).2 = eOK := by
  have h1 := (C91_exit_status c w hw).1 h0
  rw [hd] at h1
  have h2 : (s.wdtSend name id terminate same initCode result).2 = eOK := by rw [← hs]; exact h1
  unfold RCtl.wdtSend at h2
  simp only at h2
  split at h2
  · rename_i h3; exact absurd h2 h3
  · rename_i h3
    split at h2
    · rename_i h4; exact absurd h2 h4
    · rename_i h4; exact ⟨Classical.not_not.1 h4, h2, Classical.not_not.1 h3⟩

/-- This can be met. -/
example : (({ max := fun _ => 1, nsMax := fun _ => 1 } : RCtl).wdtSend 0 0 false false eOK eOK).2 = eOK ∧
    (({ max := fun _ => 1, nsMax := fun _ => 1 } : RCtl).wdtSend 0 0 false false eOK eCONN_ERROR).2 = eCONN_ERROR ∧
    (({ args := [[45]], stdin := [119] } : CmdArgs).main { sendCode := eOK }) = (.sent [119] [], 0) := by decide

end Wdt
