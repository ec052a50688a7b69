import Verif.Model.SocketLife
/-
C111, last part: which failures keep a thread from connecting again.  Before it connects again a thread asks
its socket for an error that makes this pointless (SenderThread.cpp:111-117, ReceiverThread.cpp:197-203).
-/
namespace Wdt

/-- Error codes a socket may hold; `e`: the encryption it was made with. -/
structure SlCodes (e : Int) (s : SlSock) : Prop where
  rd : s.rErr = eOK ∨ s.rErr = eSOCKET_READ_ERROR ∨ s.rErr = eWDT_TIMEOUT ∨ s.rErr = eENCRYPTION_ERROR ∨
    (e ≠ 0 ∧ s.rSet = false ∧ (s.rErr = eUNEXPECTED_CMD_ERROR ∨ s.rErr = ePROTOCOL_ERROR))
  wr : s.wErr = eOK ∨ s.wErr = eSOCKET_WRITE_ERROR ∨ s.wErr = eENCRYPTION_ERROR
  enc : s.enc ≠ 0 → e ≠ 0

variable {E : Nat → SlEv} {e : Int}

theorem SlCodes.keep {s s' : SlSock} (h : SlCodes e s) (h1 : s'.rErr = s.rErr) (h2 : s'.wErr = s.wErr) (h3 : s'.enc = s.enc)
    (h4 : s'.rSet = s.rSet) : SlCodes e s' := ⟨by rw [h1, h4]; exact h.rd, h2 ▸ h.wr, h3 ▸ h.enc⟩

theorem SlCodes.rEnc {s : SlSock} (h : SlCodes e s) : SlCodes e { s with rErr := eENCRYPTION_ERROR } :=
  ⟨by simp, h.wr, h.enc⟩

theorem SlCodes.wEnc {s : SlSock} (h : SlCodes e s) : SlCodes e { s with wErr := eENCRYPTION_ERROR } :=
  ⟨h.rd, by simp, h.enc⟩

theorem codes_read {n : Int} {s : SlSock} (h : SlCodes e s) : SlCodes e (slRead E n s).2 := by
  unfold slRead
  split
  · exact ⟨by simp, h.wr, h.enc⟩
  · split
    · refine ⟨?_, h.wr, h.enc⟩
      dsimp only
      split <;> simp
    · exact ⟨by simp, h.wr, h.enc⟩

theorem read_rSet {n : Int} {s : SlSock} : (slRead E n s).2.rSet = s.rSet := by
  unfold slRead
  split
  · rfl
  · split <;> rfl

theorem read_ok {n : Int} {s : SlSock} (hn : 0 < n) (h : (slRead E n s).1 = n) : (slRead E n s).2.rErr = eOK := by
  unfold slRead at h ⊢
  split
  · rename_i hc
    rw [if_pos hc] at h
    dsimp only at h
    omega
  · rename_i hc
    rw [if_neg hc] at h
    split
    · rename_i hc'
      rw [if_pos hc'] at h
      dsimp only at h
      omega
    · rfl

theorem codes_write {n : Int} {s : SlSock} (h : SlCodes e s) : SlCodes e (slWrite E n s).2 := by
  unfold slWrite
  split
  · exact h.keep rfl rfl rfl rfl
  · exact ⟨h.rd, by simp, h.enc⟩

theorem codes_decStart {s : SlSock} {r : Bool × SlSock} (h : SlCodes e s) (hr : slDecStart E s = .ok r) : SlCodes e r.2 := by
  unfold slDecStart at hr
  split at hr
  · cases hr
  · cases hr; exact h.keep rfl rfl rfl rfl

theorem codes_encStart {s : SlSock} {r : Bool × SlSock} (h : SlCodes e s) (hr : slEncStart E s = .ok r) : SlCodes e r.2 := by
  unfold slEncStart at hr
  split at hr
  · cases hr
  · cases hr; exact h.keep rfl rfl rfl rfl

theorem codes_decFinish {t : Bool} {s : SlSock} (h : SlCodes e s) : SlCodes e (slDecFinish E t s).2 := by
  unfold slDecFinish
  split
  · exact h.keep rfl rfl rfl rfl
  · exact h

theorem codes_encFinish {s : SlSock} (h : SlCodes e s) : SlCodes e (slEncFinish E s).2.2 := by
  unfold slEncFinish
  split
  · exact h.keep rfl rfl rfl rfl
  · exact h

theorem codes_readSettings {s s' : SlSock} (h : SlCodes e s) (hr : slReadSettings E s = .ok s') : SlCodes e s' := by
  unfold slReadSettings at hr
  by_cases h0 : s.enc = 0 ∨ s.rSet = true
  · rw [if_pos h0] at hr; cases hr; exact h
  rw [if_neg h0] at hr
  have he : e ≠ 0 := h.enc (fun hc => h0 (Or.inl hc))
  have hrs : s.rSet = false := by
    cases hb : s.rSet with
    | false => rfl
    | true => exact absurd (Or.inr hb) h0
  split at hr
  · cases hr
  have h1 := codes_read (E := E) (n := 1) h
  dsimp only at hr
  split at hr
  · cases hr; exact h1
  split at hr
  · cases hr; exact ⟨by simp [he, read_rSet, hrs], h1.wr, h1.enc⟩
  have h2 := codes_read (E := E) (n := kEncryptionCmdLen - 1) h1
  split at hr
  · cases hr; exact ⟨by simp, h2.wr, h2.enc⟩
  split at hr
  · cases hr; exact ⟨by simp [he, read_rSet, hrs], h2.wr, h2.enc⟩
  rename_i hok _
  simp only [bind, Except.bind] at hr
  split at hr
  · cases hr
  rename_i d hd
  have h3 := codes_decStart (s := { (slRead E (kEncryptionCmdLen - 1) (slRead E 1 s).2).2 with
    k := (slRead E (kEncryptionCmdLen - 1) (slRead E 1 s).2).2.k + 1
    rTag := (E (slRead E (kEncryptionCmdLen - 1) (slRead E 1 s).2).2.k).tag }) (h2.keep rfl rfl rfl rfl) hd
  split at hr
  · have hz : d.2.rErr = eOK := by
      unfold slDecStart at hd
      split at hd
      · cases hd
      · cases hd
        exact read_ok (by decide) (Classical.not_not.1 hok)
    cases hr; exact ⟨Or.inl hz, h3.wr, h3.enc⟩
  · cases hr; exact h3.rEnc

theorem codes_writeSettings {s s' : SlSock} (h : SlCodes e s) (hr : slWriteSettings E s = .ok s') : SlCodes e s' := by
  unfold slWriteSettings at hr
  split at hr
  · cases hr; exact h
  split at hr
  · cases hr
  simp only [bind, Except.bind] at hr
  split at hr
  · cases hr
  rename_i d hd
  have h1 := codes_encStart h hd
  split at hr
  · cases hr; exact h1.wEnc
  have h2 := codes_write (E := E) (n := kEncryptionCmdLen) h1
  split at hr
  · cases hr; exact h2
  · cases hr; exact h2.keep rfl rfl rfl rfl

theorem codes_decrypt {n : Int} {s : SlSock} {r : Int × SlSock} (h : SlCodes e s) (hr : slDecrypt E n s = .ok r) :
    SlCodes e r.2 := by
  unfold slDecrypt at hr
  split at hr
  · cases hr
  have h1 := codes_read (E := E) (n := n) h
  dsimp only at hr
  split at hr
  · cases hr; exact h1
  split at hr
  · cases hr
  split at hr
  · cases hr; exact h1.keep rfl rfl rfl rfl
  · cases hr; exact ⟨by simp, h1.wr, h1.enc⟩

theorem codes_readTag {s : SlSock} {r : Bool × SlSock} (h : SlCodes e s) (hr : slReadTag E s = .ok r) : SlCodes e r.2 := by
  unfold slReadTag at hr
  split at hr
  · cases hr
  have h1 := codes_read (E := E) (n := slTagLen s.enc) h
  dsimp only at hr
  split at hr
  · cases hr; exact h1.rEnc
  · cases hr; exact h1

theorem codes_verify {s : SlSock} {r : Bool × SlSock} (h : SlCodes e s) (hr : slVerify E s = .ok r) : SlCodes e r.2 := by
  unfold slVerify at hr
  split at hr
  · cases hr
  · cases hr; exact h.keep rfl rfl rfl rfl

theorem codes_decIv {s : SlSock} {r : Bool × SlSock} (h : SlCodes e s) (hr : slDecIv E s = .ok r) : SlCodes e r.2 := by
  unfold slDecIv at hr
  split at hr
  · cases hr; exact h
  have h1 := codes_read (E := E) (n := kTagLen) h
  dsimp only at hr
  split at hr
  · cases hr; exact h1
  have h2 := codes_decFinish (E := E) (t := true) h1
  split at hr
  · cases hr; exact h2
  · exact codes_decStart (s := slDecReset _) (h2.keep rfl rfl rfl rfl) hr

theorem codes_readRest {n g : Int} {s : SlSock} {r : Int × SlSock} (h : SlCodes e s) (hr : slReadRest E n g s = .ok r) :
    SlCodes e r.2 := by
  unfold slReadRest at hr
  simp only [bind, Except.bind] at hr
  split at hr
  · cases hr
  rename_i d hd
  have h1 := codes_decrypt h hd
  split at hr
  · cases hr; exact h1
  · cases hr; exact h1.keep rfl rfl rfl rfl

theorem codes_readFromTag {n g : Int} {s : SlSock} {r : Int × SlSock} (h : SlCodes e s) (hr : slReadFromTag E n g s = .ok r) :
    SlCodes e r.2 := by
  unfold slReadFromTag at hr
  split at hr
  · cases hr
  simp only [bind, Except.bind] at hr
  split at hr
  · cases hr
  rename_i t ht
  have h1 := codes_readTag h ht
  split at hr
  · cases hr; exact h1
  split at hr
  · cases hr
  rename_i v hv
  have h2 := codes_verify h1 hv
  split at hr
  · cases hr; exact h2.rEnc
  split at hr
  · cases hr
  rename_i c hc
  have h3 := codes_decIv h2 hc
  split at hr
  · cases hr; exact h3.rEnc
  · exact codes_readRest h3 hr

theorem codes_readWithTag {n : Int} {s : SlSock} {r : Int × SlSock} (h : SlCodes e s) (hr : slReadWithTag E n s = .ok r) :
    SlCodes e r.2 := by
  unfold slReadWithTag at hr
  split at hr
  · cases hr
  dsimp only at hr
  split at hr
  · split at hr
    · simp only [bind, Except.bind] at hr
      split at hr
      · cases hr
      rename_i d hd
      have h1 := codes_decrypt h hd
      split at hr
      · cases hr; exact h1
      split at hr
      · cases hr; exact h1.keep rfl rfl rfl rfl
      split at hr
      · cases hr
      · exact codes_readFromTag (s := { d.2 with totR := d.2.totR + d.1 }) (h1.keep rfl rfl rfl rfl) hr
    · exact codes_readFromTag h hr
  · exact codes_readRest h hr

theorem codes_readLoop {n : Int} (fuel : Nat) : ∀ {g : Int} {s : SlSock} {r : Int × SlSock}, SlCodes e s →
    slReadLoop E n fuel g s = .ok r → SlCodes e r.2 := by
  induction fuel with
  | zero =>
    intro g s r h hr
    unfold slReadLoop at hr
    split at hr
    · cases hr
    · cases hr; exact h
  | succ f ih =>
    intro g s r h hr
    unfold slReadLoop at hr
    split at hr
    · simp only [bind, Except.bind] at hr
      split at hr
      · cases hr
      rename_i d hd
      have h1 := codes_readWithTag h hd
      split at hr
      · cases hr; exact h1
      split at hr
      · cases hr; exact h1
      · exact ih h1 hr
    · cases hr; exact h

theorem codes_readBody {n g : Int} {s : SlSock} {r : Int × SlSock} (h : SlCodes e s) (hr : slReadBody E n g s = .ok r) :
    SlCodes e r.2 := by
  unfold slReadBody at hr
  split at hr
  · have h1 := codes_read (E := E) (n := n - g) h
    dsimp only at hr
    split at hr <;> (cases hr; exact h1)
  split at hr
  · cases hr
  split at hr
  · exact codes_decrypt h hr
  · exact codes_readLoop _ h hr

theorem codes_readOp {n : Int} {s : SlSock} {r : Int × SlSock} (h : SlCodes e s) (hr : slReadOp E n s = .ok r) :
    SlCodes e r.2 := by
  unfold slReadOp at hr
  split at hr
  · cases hr
  split at hr
  · cases hr; exact h
  simp only [bind, Except.bind] at hr
  split at hr
  · cases hr
  rename_i s1 hs1
  have h1 := codes_readSettings (s := { s with rErr := eOK }) ⟨by simp, h.wr, h.enc⟩ hs1
  split at hr
  · exact codes_readBody (s := { s1 with rErr := eOK, enc := 0, secret := false })
      ⟨by simp, h1.wr, fun hc => absurd rfl hc⟩ hr
  split at hr
  · cases hr; exact h1
  · exact codes_readBody h1 hr

theorem codes_encrypt {n : Int} {s : SlSock} {r : Int × SlSock} (h : SlCodes e s) (hr : slEncrypt E n s = .ok r) :
    SlCodes e r.2 := by
  unfold slEncrypt at hr
  split at hr
  · cases hr
  split at hr
  · cases hr; exact ⟨h.rd, by simp, h.enc⟩
  have h1 := codes_write (E := E) (n := n) (s := { s with k := s.k + 1, encNum := s.encNum + n }) (h.keep rfl rfl rfl rfl)
  dsimp only at hr
  split at hr
  · cases hr; exact ⟨h1.rd, by simp, h1.enc⟩
  · cases hr; exact h1

theorem codes_writeTag {s : SlSock} {r : Bool × SlSock} (h : SlCodes e s) (hr : slWriteTag E s = .ok r) : SlCodes e r.2 := by
  unfold slWriteTag at hr
  split at hr
  · cases hr
  split at hr
  · cases hr; exact ⟨h.rd, by simp, h.enc⟩
  · cases hr
    exact codes_write (s := { s with k := s.k + 1 }) (h.keep rfl rfl rfl rfl)

theorem codes_encIv {s : SlSock} {r : Bool × SlSock} (h : SlCodes e s) (hr : slEncIv E s = .ok r) : SlCodes e r.2 := by
  unfold slEncIv at hr
  split at hr
  · cases hr; exact h
  simp only [bind, Except.bind] at hr
  split at hr
  · cases hr
  rename_i d hd
  have h1 := codes_encStart (s := slEncReset s) (h.keep rfl rfl rfl rfl) hd
  split at hr
  · cases hr; exact h1
  · cases hr; exact codes_write h1

theorem codes_writeRest {n g : Int} {s : SlSock} {r : Int × SlSock} (h : SlCodes e s) (hr : slWriteRest E n g s = .ok r) :
    SlCodes e r.2 := by
  unfold slWriteRest at hr
  simp only [bind, Except.bind] at hr
  split at hr
  · cases hr
  rename_i d hd
  have h1 := codes_encrypt h hd
  split at hr
  · cases hr; exact h1
  · cases hr; exact h1.keep rfl rfl rfl rfl

theorem codes_writeFromTag {n g : Int} {s : SlSock} {r : Int × SlSock} (h : SlCodes e s)
    (hr : slWriteFromTag E n g s = .ok r) : SlCodes e r.2 := by
  unfold slWriteFromTag at hr
  split at hr
  · cases hr
  simp only [bind, Except.bind] at hr
  split at hr
  · cases hr
  rename_i t ht
  have h1 := codes_writeTag h ht
  split at hr
  · cases hr; exact h1
  split at hr
  · cases hr
  rename_i c hc
  have h2 := codes_encIv h1 hc
  split at hr
  · cases hr; exact h2.wEnc
  · exact codes_writeRest h2 hr

theorem codes_writeWithTag {n : Int} {s : SlSock} {r : Int × SlSock} (h : SlCodes e s) (hr : slWriteWithTag E n s = .ok r) :
    SlCodes e r.2 := by
  unfold slWriteWithTag at hr
  split at hr
  · cases hr
  dsimp only at hr
  split at hr
  · split at hr
    · simp only [bind, Except.bind] at hr
      split at hr
      · cases hr
      rename_i d hd
      have h1 := codes_encrypt h hd
      split at hr
      · cases hr; exact h1
      · exact codes_writeFromTag (s := { d.2 with totW := d.2.totW + d.1 }) (h1.keep rfl rfl rfl rfl) hr
    · exact codes_writeFromTag h hr
  · exact codes_writeRest h hr

theorem codes_writeLoop {n : Int} (fuel : Nat) : ∀ {g : Int} {s : SlSock} {r : Int × SlSock}, SlCodes e s →
    slWriteLoop E n fuel g s = .ok r → SlCodes e r.2 := by
  induction fuel with
  | zero =>
    intro g s r h hr
    unfold slWriteLoop at hr
    split at hr
    · cases hr
    · cases hr; exact h
  | succ f ih =>
    intro g s r h hr
    unfold slWriteLoop at hr
    split at hr
    · simp only [bind, Except.bind] at hr
      split at hr
      · cases hr
      rename_i d hd
      have h1 := codes_writeWithTag h hd
      split at hr
      · cases hr; exact h1
      · exact ih h1 hr
    · cases hr; exact h

theorem codes_writeOp {n : Int} {s : SlSock} {r : Int × SlSock} (h : SlCodes e s) (hr : slWriteOp E n s = .ok r) :
    SlCodes e r.2 := by
  unfold slWriteOp at hr
  split at hr
  · cases hr
  split at hr
  · cases hr; exact h
  simp only [bind, Except.bind] at hr
  split at hr
  · cases hr
  rename_i s1 hs1
  have h1 := codes_writeSettings h hs1
  split at hr
  · cases hr; exact h1
  split at hr
  · cases hr; exact codes_write h1
  split at hr
  · exact codes_encrypt h1 hr
  · exact codes_writeLoop _ h1 hr

theorem codes_finReads {t : Bool} {s : SlSock} {r : ErrCode × SlSock} (h : SlCodes e s) (hr : slFinReads E t s = .ok r) :
    SlCodes e r.2 := by
  unfold slFinReads at hr
  split at hr
  · simp only [bind, Except.bind] at hr
    split at hr
    · cases hr
    rename_i d hd
    have h1 := codes_readTag h hd
    cases hr
    exact (codes_decFinish (E := E) (t := d.1) h1).keep rfl rfl rfl rfl
  · cases hr
    exact (codes_decFinish (E := E) (t := false) h).keep rfl rfl rfl rfl

theorem codes_finWrites {t : Bool} {s : SlSock} (h : SlCodes e s) : SlCodes e (slFinWrites E t s).2 := by
  unfold slFinWrites
  have h1 := codes_encFinish (E := E) h
  dsimp only
  split
  · exact (codes_write (E := E) (n := kTagLen) h1).keep rfl rfl rfl rfl
  · exact h1.keep rfl rfl rfl rfl

theorem codes_close {t : Bool} {s : SlSock} {r : ErrCode × SlSock} (h : SlCodes e s) (hr : slClose E t s = .ok r) :
    SlCodes e r.2 := by
  unfold slClose at hr
  split at hr
  · cases hr; exact h
  have h1 : SlCodes e (if s.wFin then (eOK, s) else slFinWrites E t s).2 := by
    split
    · exact h
    · exact codes_finWrites h
  revert hr
  generalize (if s.wFin then (eOK, s) else slFinWrites E t s) = w at h1
  intro hr
  simp only [bind, Except.bind] at hr
  split at hr
  · cases hr
  rename_i q hq
  have h2 : SlCodes e q.2 := by
    split at hq
    · cases hq; exact h1
    · exact codes_finReads h1 hq
  cases hr
  exact ⟨by simp [slReset, slDecReset, slEncReset], by simp [slReset, slDecReset, slEncReset], h2.enc⟩

theorem codes_step {op : SlOp} {s : SlSock} {r : Int × SlSock} (h : SlCodes e s) (hr : slStep E op s = .ok r) :
    SlCodes e r.2 := by
  cases op with
  | connect fd => cases hr; exact h.keep rfl rfl rfl rfl
  | read n => exact codes_readOp h hr
  | write n => exact codes_writeOp h hr
  | shutdownWrites => cases hr; exact (codes_finWrites h).keep rfl rfl rfl rfl
  | expectEndOfStream =>
    simp only [slStep, bind, Except.bind] at hr
    split at hr
    · cases hr
    · rename_i q hq
      cases hr
      exact codes_finReads h hq
  | close t =>
    simp only [slStep, bind, Except.bind] at hr
    split at hr
    · cases hr
    · rename_i q hq
      cases hr
      exact codes_close h hq

theorem codes_run (ops : List SlOp) : ∀ {s : SlSock} {r : List Int × SlSock}, SlCodes e s → slRun E ops s = .ok r →
    SlCodes e r.2 := by
  induction ops with
  | nil => intro s r h hr; cases hr; exact h
  | cons op ops ih =>
    intro s r h hr
    simp only [slRun, bind, Except.bind] at hr
    split at hr
    · cases hr
    rename_i a ha
    split at hr
    · cases hr
    rename_i b hb
    cases hr
    exact ih (r := b) (codes_step h ha) hb

/-- C111: whatever fails on the network or in the cipher, the thread may connect again.  The only thing that
makes a socket advise against it is an encrypted connection on which the peer's settings were read and
refused (`rSet` says that they were accepted); a socket made without encryption never does. -/
theorem C111_retried (E : Nat → SlEv) (enc : Int) (secret plain : Bool) (iv tag : Int) (ops : List SlOp) (rs : List Int)
    (s : SlSock) (h : slRun E ops (slNew enc secret plain iv tag) = .ok (rs, s)) :
    (slNonRetryable s = eOK ∨
      enc ≠ 0 ∧ s.rSet = false ∧ (s.rErr = eUNEXPECTED_CMD_ERROR ∨ s.rErr = ePROTOCOL_ERROR) ∧ slNonRetryable s = s.rErr) ∧
    (enc = 0 → slNonRetryable s = eOK) := by
  have hc : SlCodes enc s := codes_run ops (r := (rs, s)) ⟨Or.inl rfl, Or.inl rfl, fun h => h⟩ h
  have hw : (if s.wErr = eSOCKET_WRITE_ERROR ∨ s.wErr = eENCRYPTION_ERROR then eOK else s.wErr) = eOK := by
    rcases hc.wr with h | h | h <;> rw [h] <;> decide
  have hn : slNonRetryable s =
      if s.rErr = eSOCKET_READ_ERROR ∨ s.rErr = eWDT_TIMEOUT ∨ s.rErr = eENCRYPTION_ERROR then eOK else s.rErr := by
    unfold slNonRetryable
    rw [hw]
    exact Nat.max_zero _
  rw [hn]
  rcases hc.rd with h | h | h | h | ⟨he, hset, h⟩
  · rw [h]; exact ⟨Or.inl (by decide), fun _ => by decide⟩
  · rw [h]; exact ⟨Or.inl (by decide), fun _ => by decide⟩
  · rw [h]; exact ⟨Or.inl (by decide), fun _ => by decide⟩
  · rw [h]; exact ⟨Or.inl (by decide), fun _ => by decide⟩
  · refine ⟨Or.inr ⟨he, hset, h, ?_⟩, fun h0 => absurd h0 he⟩
    rcases h with h | h <;> rw [h] <;> decide

/- A time-out, and a peer that sends something else instead of its settings. -/
example : (slRun (fun k => { n := if k = 1 then -1 else 40, again := true }) [.connect 5, .read 6, .read 3] (slNew 0 false false 0 0)).map
    (fun r => (r.1, r.2.rErr, slNonRetryable r.2)) = .ok ([0, 6, -1], eWDT_TIMEOUT, eOK) := by decide +kernel

example : (slRun (fun _ => { n := 40, ok := false }) [.connect 5, .read 6] (slNew ENC_AES128_GCM true false 8 4)).map
    (fun r => (r.1, slNonRetryable r.2)) = .ok ([0, -1], eUNEXPECTED_CMD_ERROR) := by decide +kernel

end Wdt
