import Verif.Model.SocketLife
/-
Lemmas about the life of a socket (Model/SocketLife.lean).
-/
namespace Wdt

/-- no fault, and the result is as `P` says -/
def SlOk {α : Type} (m : Except Fault α) (P : α → Prop) : Prop := ∃ a, m = .ok a ∧ P a

theorem SlOk.pure {α : Type} {a : α} {P : α → Prop} (h : P a) : SlOk (Except.ok a) P := ⟨a, rfl, h⟩

theorem SlOk.bind {α β : Type} {m : Except Fault α} {P : α → Prop} {f : α → Except Fault β} {Q : β → Prop}
    (hm : SlOk m P) (hf : ∀ a, P a → SlOk (f a) Q) : SlOk (m >>= f) Q := by
  obtain ⟨a, rfl, ha⟩ := hm
  exact hf a ha

theorem SlOk.mono {α : Type} {m : Except Fault α} {P Q : α → Prop} (hm : SlOk m P) (h : ∀ a, P a → Q a) : SlOk m Q := by
  obtain ⟨a, e, ha⟩ := hm
  exact ⟨a, e, h a ha⟩

/-- `s'` differs from `s` in what reading behind the settings changes -/
def SlRFrame (s s' : SlSock) : Prop :=
  s' = { s with k := s'.k, rErr := s'.rErr, totR := s'.totR, decOn := s'.decOn, decType := s'.decType, decNum := s'.decNum }

/-- `s'` differs from `s` in what writing behind the settings changes -/
def SlWFrame (s s' : SlSock) : Prop :=
  s' = { s with k := s'.k, wErr := s'.wErr, totW := s'.totW, encOn := s'.encOn, encType := s'.encType, encNum := s'.encNum }

theorem SlRFrame.trans {a b c : SlSock} (h : SlRFrame a b) (h' : SlRFrame b c) : SlRFrame a c := by
  unfold SlRFrame at *
  rw [h', h]

theorem SlWFrame.trans {a b c : SlSock} (h : SlWFrame a b) (h' : SlWFrame b c) : SlWFrame a c := by
  unfold SlWFrame at *
  rw [h', h]

theorem SlRFrame.enc {a b : SlSock} (h : SlRFrame a b) : b.enc = a.enc := by rw [h]
theorem SlRFrame.rTag {a b : SlSock} (h : SlRFrame a b) : b.rTag = a.rTag := by rw [h]
theorem SlWFrame.enc {a b : SlSock} (h : SlWFrame a b) : b.enc = a.enc := by rw [h]
theorem SlWFrame.wTag {a b : SlSock} (h : SlWFrame a b) : b.wTag = a.wTag := by rw [h]

/-- ready to read encrypted data -/
structure SlRGood (s : SlSock) : Prop where
  enc : s.enc ≠ 0
  on : s.decOn = true
  type : s.decType = s.enc
  tag : 0 < s.rTag → s.enc = ENC_AES128_GCM
  tot : 0 ≤ s.totR

/-- the error code of a read allows another one -/
def SlGoesOn (s : SlSock) : Prop := s.rErr = eOK ∨ s.rErr = eWDT_TIMEOUT

/-- after a read of `n` bytes that returned `r.1` -/
structure SlRPost (n : Int) (s : SlSock) (r : Int × SlSock) : Prop where
  frame : SlRFrame s r.2
  tot : 0 ≤ r.2.totR
  on : SlGoesOn r.2 → r.2.decOn = true
  type : r.2.decOn = true → r.2.decType = r.2.enc
  fail : r.1 ≤ 0 → r.2.rErr ≠ eOK
  full : r.1 = n → r.2.rErr = eOK
  le : r.1 ≤ n

theorem SlRPost.good {n : Int} {s : SlSock} {r : Int × SlSock} (hs : SlRGood s) (h : SlRPost n s r) (he : r.2.rErr = eOK) :
    SlRGood r.2 :=
  ⟨by rw [h.frame.enc]; exact hs.enc, h.on (.inl he), h.type (h.on (.inl he)),
    by rw [h.frame.enc, h.frame.rTag]; exact hs.tag, h.tot⟩

theorem eOK_ne : eSOCKET_READ_ERROR ≠ eOK ∧ eWDT_TIMEOUT ≠ eOK ∧ eENCRYPTION_ERROR ≠ eOK ∧ eENCRYPTION_ERROR ≠ eWDT_TIMEOUT ∧
    eSOCKET_READ_ERROR ≠ eWDT_TIMEOUT ∧ eSOCKET_WRITE_ERROR ≠ eOK ∧ ePROTOCOL_ERROR ≠ eOK ∧ eUNEXPECTED_CMD_ERROR ≠ eOK ∧
    ePROTOCOL_ERROR ≠ eWDT_TIMEOUT ∧ eUNEXPECTED_CMD_ERROR ≠ eWDT_TIMEOUT := by decide

theorem eENC_ne_UNEXP : eENCRYPTION_ERROR ≠ eUNEXPECTED_CMD_ERROR := by decide

theorem slRead_spec (E : Nat → SlEv) (n : Int) (s : SlSock) :
    (slRead E n s).2 = { s with k := s.k + 1, rErr := (slRead E n s).2.rErr } ∧
    ((slRead E n s).1 ≤ 0 → (slRead E n s).2.rErr ≠ eOK) ∧
    (0 < (slRead E n s).1 → (slRead E n s).2.rErr = eOK) ∧
    (0 < n → (slRead E n s).1 ≤ n) := by
  unfold slRead
  split
  · refine ⟨rfl, fun _ => eOK_ne.1, fun h => by simp at h, fun h => by dsimp only; omega⟩
  · split
    · refine ⟨rfl, fun _ => ?_, fun h => by simp at h, fun h => by dsimp only; omega⟩
      dsimp only
      split
      · exact eOK_ne.2.1
      · exact eOK_ne.1
    · rename_i h1 h2
      refine ⟨rfl, fun h => ?_, fun _ => rfl, fun h => by dsimp only; omega⟩
      dsimp only at h
      omega

theorem slRead_frame (E : Nat → SlEv) (n : Int) (s : SlSock) : SlRFrame s (slRead E n s).2 := by
  unfold SlRFrame
  rw [(slRead_spec E n s).1]

theorem slDecrypt_post (E : Nat → SlEv) (n : Int) (s : SlSock) (hn : 0 < n) (hs : SlRGood s) :
    SlOk (slDecrypt E n s) (fun r => SlRPost n s r ∧ r.2.totR = s.totR ∧ r.2.decOn = true ∧ (0 < r.1 → r.2.rErr = eOK)) := by
  obtain ⟨h1, h2, h3, h4⟩ := slRead_spec E n s
  have hon : (slRead E n s).2.decOn = true := by rw [h1]; exact hs.on
  have hty : (slRead E n s).2.decType = (slRead E n s).2.enc := by rw [h1]; exact hs.type
  have htot : (slRead E n s).2.totR = s.totR := by rw [h1]
  unfold slDecrypt
  rw [if_neg (by rintro (h | h); · omega
                 · exact hs.enc h)]
  dsimp only
  split
  · rename_i h
    refine SlOk.pure ⟨⟨slRead_frame E n s, by rw [htot]; exact hs.tot, fun _ => hon, fun _ => hty, h2, fun h' => ?_, h4 hn⟩, htot, hon, h3⟩
    omega
  · rename_i h
    rw [if_neg (by rw [hon]; decide)]
    split
    · refine SlOk.pure ⟨⟨?_, ?_, fun _ => hon, fun _ => hty, fun h' => absurd h' h, fun _ => h3 (by omega), h4 hn⟩, htot, hon, fun _ => h3 (by omega)⟩
      · unfold SlRFrame; dsimp only; rw [h1]
      · dsimp only; rw [htot]; exact hs.tot
    · refine SlOk.pure ⟨⟨?_, ?_, fun _ => hon, fun _ => hty, fun _ => eOK_ne.2.2.1, fun h' => ?_, by dsimp only; omega⟩, htot, hon, fun h' => ?_⟩
      · unfold SlRFrame; dsimp only; rw [h1]
      · dsimp only; rw [htot]; exact hs.tot
      · dsimp only at h'; omega
      · dsimp only at h'; omega

theorem slReadRest_post (E : Nat → SlEv) (n got : Int) (s : SlSock) (hg : 0 ≤ got) (hn : got < n) (hs : SlRGood s) :
    SlOk (slReadRest E n got s) (SlRPost n s) := by
  refine SlOk.bind (slDecrypt_post E (n - got) s (by omega) hs) ?_
  rintro ⟨r, s'⟩ ⟨hp, ht, hon, hok⟩
  have hfr := hp.frame
  have hfail := hp.fail
  have hty := hp.type
  have hle := hp.le
  dsimp only at hfr ht hon hok hfail hty hle ⊢
  split
  · rename_i h
    refine SlOk.pure ⟨hfr, hp.tot, fun _ => hon, hty, fun _ => hfail h, fun h' => ?_, ?_⟩
    · dsimp only at h'; split at h' <;> omega
    · dsimp only; split <;> omega
  · rename_i h
    refine SlOk.pure ⟨?_, ?_, fun _ => hon, hty, fun h' => ?_, fun _ => hok (by omega), by dsimp only; omega⟩
    · unfold SlRFrame at *; dsimp only; rw [hfr]
    · dsimp only; rw [ht]; have := hs.tot; omega
    · dsimp only at h'; omega

theorem slDecIv_post (E : Nat → SlEv) (s : SlSock) (hs : SlRGood s) (he : s.rErr = eOK) :
    SlOk (slDecIv E s) (fun c => SlRFrame s c.2 ∧ c.2.totR = s.totR ∧ (c.1 = true → c.2.decOn = true ∧ c.2.rErr = eOK) ∧
      (c.2.decOn = true → c.2.decType = c.2.enc)) := by
  obtain ⟨h1, h2, h3, h4⟩ := slRead_spec E kTagLen s
  unfold slDecIv
  split
  · exact SlOk.pure ⟨rfl, rfl, fun _ => ⟨hs.on, he⟩, fun _ => hs.type⟩
  · dsimp only
    split
    · refine SlOk.pure ⟨slRead_frame E _ s, by dsimp only; rw [h1], fun h => by simp at h, fun _ => ?_⟩
      dsimp only
      rw [h1]
      exact hs.type
    · rename_i hk
      have hk' : 0 < (slRead E kTagLen s).1 := by
        have : (kTagLen : Int) = 16 := by decide
        omega
      have hon : (slRead E kTagLen s).2.decOn = true := by rw [h1]; exact hs.on
      unfold slDecFinish
      rw [if_pos hon]
      dsimp only
      split
      · refine SlOk.pure ⟨?_, by dsimp only; rw [h1], fun h => by simp at h, fun h => by simp at h⟩
        unfold SlRFrame; dsimp only; rw [h1]
      · unfold slDecStart slDecReset
        rw [if_neg (by simp)]
        refine SlOk.pure ⟨?_, by dsimp only; rw [h1], fun h => ⟨h, h3 hk'⟩, fun _ => rfl⟩
        unfold SlRFrame; dsimp only; rw [h1]

theorem tagLen_gcm : slTagLen ENC_AES128_GCM = 16 := by decide

theorem slReadFromTag_post (E : Nat → SlEv) (n got : Int) (s : SlSock) (hg : 0 ≤ got) (hn : got < n) (hs : SlRGood s)
    (ht : 0 < s.rTag) (hm : s.totR % s.rTag = 0) : SlOk (slReadFromTag E n got s) (SlRPost n s) := by
  have hgcm := hs.tag ht
  unfold slReadFromTag
  rw [if_neg (by rw [hm]; simp)]
  obtain ⟨h1, h2, h3, h4⟩ := slRead_spec E (slTagLen s.enc) s
  have hl : slTagLen s.enc = 16 := by rw [hgcm]; decide
  have hT : SlOk (slReadTag E s) (fun t => SlRFrame s t.2 ∧ t.2.totR = s.totR ∧ t.2.decOn = true ∧ t.2.decType = s.enc ∧
      (t.1 = true → t.2.rErr = eOK) ∧ (t.1 = false → t.2.rErr = eENCRYPTION_ERROR)) := by
    unfold slReadTag
    rw [if_neg (by rw [hl]; decide)]
    dsimp only
    split
    · refine SlOk.pure ⟨?_, by dsimp only; rw [h1], by dsimp only; rw [h1]; exact hs.on, by dsimp only; rw [h1]; exact hs.type, fun h => by simp at h, fun _ => rfl⟩
      unfold SlRFrame; dsimp only; rw [h1]
    · rename_i hk
      exact SlOk.pure ⟨slRead_frame E _ s, by dsimp only; rw [h1], by dsimp only; rw [h1]; exact hs.on, by dsimp only; rw [h1]; exact hs.type, fun _ => h3 (by omega), fun h => by simp at h⟩
  refine SlOk.bind hT ?_
  rintro ⟨t, s1⟩ ⟨hf, htot, hon, hty, htt, htf⟩
  dsimp only at hf htot hon hty htt htf ⊢
  split
  · rename_i hb
    refine SlOk.pure ⟨hf, by dsimp only; rw [htot]; exact hs.tot, fun _ => hon, fun _ => by dsimp only; rw [hty, hf.enc], fun _ => ?_, fun h => ?_, by dsimp only; omega⟩
    · dsimp only; rw [htf hb]; exact eOK_ne.2.2.1
    · dsimp only at h; omega
  · rename_i hb
    have hV : SlOk (slVerify E s1) (fun v => v.2 = { s1 with k := s1.k + 1 }) := by
      unfold slVerify
      rw [if_neg (by rw [hty, hgcm]; simp)]
      exact SlOk.pure rfl
    refine SlOk.bind hV ?_
    rintro ⟨v, s2⟩ hv
    dsimp only at hv ⊢
    subst hv
    have hf2 : SlRFrame s { s1 with k := s1.k + 1 } := by unfold SlRFrame at *; dsimp only; rw [hf]
    split
    · refine SlOk.pure ⟨?_, by dsimp only; rw [htot]; exact hs.tot, fun _ => hon, fun _ => by dsimp only; rw [hty, hf.enc], fun _ => eOK_ne.2.2.1, fun h => ?_, by dsimp only; omega⟩
      · unfold SlRFrame at *; dsimp only; rw [hf]
      · dsimp only at h; omega
    · have hg2 : SlRGood { s1 with k := s1.k + 1 } :=
        ⟨by dsimp only; rw [hf.enc]; exact hs.enc, hon, by dsimp only; rw [hty, hf.enc], by dsimp only; rw [hf.enc, hf.rTag]; exact hs.tag, by dsimp only; rw [htot]; exact hs.tot⟩
      refine SlOk.bind (slDecIv_post E _ hg2 (by dsimp only; exact htt (by simpa using hb))) ?_
      rintro ⟨c, s3⟩ ⟨hc1, hc2, hc3, hc4⟩
      dsimp only at hc1 hc2 hc3 hc4 ⊢
      have hfr := hf2.trans hc1
      split
      · refine SlOk.pure ⟨?_, by dsimp only; rw [hc2, htot]; exact hs.tot, fun h => ?_, hc4, fun _ => eOK_ne.2.2.1, fun h => ?_, by dsimp only; omega⟩
        · unfold SlRFrame at *; dsimp only; rw [hfr]
        · exact h.elim (fun h => absurd h eOK_ne.2.2.1) (fun h => absurd h eOK_ne.2.2.2.1)
        · dsimp only at h; omega
      · rename_i hcb
        obtain ⟨hon3, he3⟩ := hc3 (by simpa using hcb)
        have hg3 : SlRGood s3 :=
          ⟨by rw [hfr.enc]; exact hs.enc, hon3, hc4 hon3, by rw [hfr.enc, hfr.rTag]; exact hs.tag, by rw [hc2, htot]; exact hs.tot⟩
        exact (slReadRest_post E n got s3 hg hn hg3).mono fun r hr => ⟨hfr.trans hr.frame, hr.tot, hr.on, hr.type, hr.fail, hr.full, hr.le⟩

theorem nextTagOffset_spec (t T : Int) (ht : 0 ≤ t) (hT : 0 < T) :
    0 ≤ computeNextTagOffset t T ∧ computeNextTagOffset t T ≤ T ∧ (t + computeNextTagOffset t T) % T = 0 := by
  have h1 := Int.emod_nonneg t (show T ≠ 0 by omega)
  have h2 := Int.emod_lt_of_pos t hT
  unfold computeNextTagOffset
  split
  · rename_i h
    subst h
    exact ⟨by omega, by omega, by simp⟩
  · split
    · exact ⟨by omega, by omega, by rw [Int.add_zero]; omega⟩
    · refine ⟨by omega, by omega, ?_⟩
      have h3 : t + (T - t % T) = T * (t / T + 1) := by
        have := Int.emod_add_mul_ediv t T
        rw [Int.mul_add, Int.mul_one]
        omega
      rw [h3, Int.mul_emod_right]

theorem slReadWithTag_post (E : Nat → SlEv) (n : Int) (s : SlSock) (hn : 0 < n) (hT : 0 < s.rTag) (hnT : n ≤ s.rTag)
    (hs : SlRGood s) : SlOk (slReadWithTag E n s) (SlRPost n s) := by
  obtain ⟨ho1, ho2, ho3⟩ := nextTagOffset_spec s.totR s.rTag hs.tot hT
  unfold slReadWithTag
  rw [if_neg (by omega)]
  dsimp only
  split
  · rename_i hlt
    split
    · rename_i hpos
      refine SlOk.bind (slDecrypt_post E _ s hpos hs) ?_
      rintro ⟨r, s'⟩ ⟨hp, ht, hon, hok⟩
      have hfr := hp.frame
      have hfail := hp.fail
      have hty := hp.type
      have hle := hp.le
      have htot := hs.tot
      dsimp only at hfr ht hon hok hfail hty hle ⊢
      split
      · rename_i h
        exact SlOk.pure ⟨hfr, hp.tot, hp.on, hty, hp.fail, fun h' => by dsimp only at h'; omega, by dsimp only; omega⟩
      · rename_i h
        split
        · rename_i h'
          refine SlOk.pure ⟨?_, by dsimp only; omega, fun _ => hon, hty, fun h' => by dsimp only at h'; omega, fun h' => by dsimp only at h'; omega, by dsimp only; omega⟩
          unfold SlRFrame at *; dsimp only; rw [hfr]
        · rename_i h'
          rw [if_neg (by omega)]
          have hr : r = computeNextTagOffset s.totR s.rTag := by omega
          have hfr2 : SlRFrame s { s' with totR := s'.totR + r } := by unfold SlRFrame at *; dsimp only; rw [hfr]
          have hg2 : SlRGood { s' with totR := s'.totR + r } :=
            ⟨by rw [hfr2.enc]; exact hs.enc, hon, hty hon, by rw [hfr2.enc, hfr2.rTag]; exact hs.tag, by dsimp only; omega⟩
          refine (slReadFromTag_post E n _ _ ho1 hlt hg2 (by rw [hfr2.rTag]; exact hT) ?_).mono
            fun a ha => ⟨hfr2.trans ha.frame, ha.tot, ha.on, ha.type, ha.fail, ha.full, ha.le⟩
          rw [hfr2.rTag]
          dsimp only
          rw [ht, hr]
          exact ho3
    · rename_i hpos
      have h0 : computeNextTagOffset s.totR s.rTag = 0 := by omega
      rw [h0, Int.add_zero] at ho3
      exact slReadFromTag_post E n 0 s (by omega) hn hs hT ho3
  · exact slReadRest_post E n 0 s (by omega) hn hs

theorem slReadLoop_post (E : Nat → SlEv) (n : Int) : ∀ (fuel : Nat) (got : Int) (s : SlSock), 0 ≤ got → got ≤ n →
    n - got ≤ fuel → 0 < n → 0 < s.rTag → s.rErr = eOK → SlRGood s → SlOk (slReadLoop E n fuel got s) (SlRPost n s) := by
  intro fuel
  induction fuel with
  | zero =>
    intro got s hg hle hfu hn hT he hs
    unfold slReadLoop
    rw [if_neg (by push_cast at hfu; omega)]
    exact SlOk.pure ⟨rfl, hs.tot, fun _ => hs.on, fun _ => hs.type, fun h => by push_cast at hfu; dsimp only at h; omega, fun _ => he, hle⟩
  | succ fuel ih =>
    intro got s hg hle hfu hn hT he hs
    push_cast at hfu
    unfold slReadLoop
    split
    · rename_i hlt
      dsimp only
      refine SlOk.bind (slReadWithTag_post E (min (n - got) s.rTag) s (by omega) hT (by omega) hs) ?_
      rintro ⟨r, s'⟩ hp
      have hfr := hp.frame
      have hfail := hp.fail
      have hple := hp.le
      have hfull := hp.full
      dsimp only at hfr hfail hple hfull ⊢
      split
      · rename_i h
        refine SlOk.pure ⟨hfr, hp.tot, hp.on, hp.type, fun _ => hfail h, fun h' => ?_, ?_⟩
        · dsimp only at h'; split at h' <;> omega
        · dsimp only; split <;> omega
      · rename_i h
        split
        · rename_i h'
          exact SlOk.pure ⟨hfr, hp.tot, hp.on, hp.type, fun h' => by dsimp only at h'; omega, fun h' => by dsimp only at h'; omega, by dsimp only; omega⟩
        · rename_i h'
          have hr : r = min (n - got) s.rTag := by omega
          have he' := hfull hr
          exact (ih (got + r) s' (by omega) (by omega) (by omega) hn (by rw [hfr.rTag]; exact hT) he' (SlRPost.good hs hp he')).mono
            fun a ha => ⟨hfr.trans ha.frame, ha.tot, ha.on, ha.type, ha.fail, ha.full, ha.le⟩
    · exact SlOk.pure ⟨rfl, hs.tot, fun _ => hs.on, fun _ => hs.type, fun h => by dsimp only at h; omega, fun _ => he, hle⟩

/-- ready to write encrypted data -/
structure SlWGood (s : SlSock) : Prop where
  enc : s.enc ≠ 0
  on : s.encOn = true
  type : 0 < s.wTag → s.encType = ENC_AES128_GCM ∧ s.enc = ENC_AES128_GCM
  tot : 0 ≤ s.totW
  ok : s.wErr = eOK

/-- after a write of `n` bytes that returned `r.1` -/
structure SlWPost (n : Int) (s : SlSock) (r : Int × SlSock) : Prop where
  frame : SlWFrame s r.2
  tot : 0 ≤ r.2.totW
  on : r.2.wErr = eOK → r.2.encOn = true
  type : r.2.encOn = true → 0 < s.wTag → r.2.encType = ENC_AES128_GCM
  fail : r.1 ≠ n → r.2.wErr ≠ eOK
  full : r.1 = n → r.2.wErr = eOK

theorem SlWPost.good {n : Int} {s : SlSock} {r : Int × SlSock} (hs : SlWGood s) (h : SlWPost n s r) (he : r.1 = n) :
    SlWGood r.2 :=
  ⟨by rw [h.frame.enc]; exact hs.enc, h.on (h.full he),
    fun hT => by rw [h.frame.wTag] at hT; exact ⟨h.type (h.on (h.full he)) hT, by rw [h.frame.enc]; exact (hs.type hT).2⟩, h.tot, h.full he⟩

theorem slWrite_spec (E : Nat → SlEv) (n : Int) (s : SlSock) (hn : 0 < n) :
    (slWrite E n s).2 = { s with k := s.k + 1, wErr := (slWrite E n s).2.wErr } ∧
    ((slWrite E n s).1 ≠ n → (slWrite E n s).2.wErr = eSOCKET_WRITE_ERROR) ∧
    ((slWrite E n s).1 = n → (slWrite E n s).2.wErr = s.wErr) := by
  unfold slWrite
  split
  · exact ⟨rfl, fun h => absurd rfl h, fun _ => rfl⟩
  · exact ⟨rfl, fun _ => rfl, fun h => by dsimp only at h; omega⟩

theorem slEncrypt_post (E : Nat → SlEv) (n : Int) (s : SlSock) (hn : 0 < n) (hs : SlWGood s) :
    SlOk (slEncrypt E n s) (fun r => SlWPost n s r ∧ r.2.totW = s.totW) := by
  obtain ⟨h1, h2, h3⟩ := slWrite_spec E n { s with k := s.k + 1, encNum := s.encNum + n } hn
  unfold slEncrypt
  rw [if_neg (by rintro (h | h | h); · omega
                 · exact hs.enc h
                 · rw [hs.on] at h; cases h)]
  split
  · refine SlOk.pure ⟨⟨rfl, hs.tot, fun _ => hs.on, fun _ h => (hs.type h).1, fun _ => eOK_ne.2.2.1, fun h => ?_⟩, rfl⟩
    dsimp only at h; omega
  · dsimp only
    split
    · rename_i h
      refine SlOk.pure ⟨⟨?_, ?_, fun _ => ?_, fun _ hT => ?_, fun _ => eOK_ne.2.2.2.2.2.1, fun h' => absurd h' h⟩, ?_⟩
      · unfold SlWFrame; dsimp only; rw [h1]
      · dsimp only; rw [h1]; exact hs.tot
      · dsimp only; rw [h1]; exact hs.on
      · dsimp only; rw [h1]; exact (hs.type hT).1
      · dsimp only; rw [h1]
    · rename_i h
      have h := Decidable.not_not.1 h
      refine SlOk.pure ⟨⟨?_, ?_, fun _ => ?_, fun _ hT => ?_, fun h' => absurd h h', fun _ => ?_⟩, ?_⟩
      · unfold SlWFrame; rw [h1]
      · rw [h1]; exact hs.tot
      · rw [h1]; exact hs.on
      · rw [h1]; exact (hs.type hT).1
      · rw [h3 h]; exact hs.ok
      · rw [h1]

theorem slWriteRest_post (E : Nat → SlEv) (n done : Int) (s : SlSock) (hd : 0 ≤ done) (hn : done < n) (hs : SlWGood s) :
    SlOk (slWriteRest E n done s) (SlWPost n s) := by
  refine SlOk.bind (slEncrypt_post E (n - done) s (by omega) hs) ?_
  rintro ⟨w, s'⟩ ⟨hp, ht⟩
  have hfr := hp.frame
  have htot := hs.tot
  dsimp only at hfr ht ⊢
  split
  · rename_i h
    exact SlOk.pure ⟨hfr, hp.tot, hp.on, hp.type, fun _ => hp.fail h, fun h' => by dsimp only at h'; omega⟩
  · rename_i h
    have h := Decidable.not_not.1 h
    refine SlOk.pure ⟨?_, by dsimp only; omega, hp.on, hp.type, fun h' => absurd rfl h', fun _ => hp.full h⟩
    unfold SlWFrame at *; dsimp only; rw [hfr]

theorem slWriteFromTag_post (E : Nat → SlEv) (n done : Int) (s : SlSock) (hd : 0 ≤ done) (hn : done < n) (hs : SlWGood s)
    (hT : 0 < s.wTag) (hm : s.totW % s.wTag = 0) : SlOk (slWriteFromTag E n done s) (SlWPost n s) := by
  obtain ⟨hty, henc⟩ := hs.type hT
  have hl : slTagLen s.encType = 16 := by rw [hty]; decide
  unfold slWriteFromTag
  rw [if_neg (by rw [hm]; simp)]
  have hW : SlOk (slWriteTag E s) (fun t => ∃ k' e', t.2 = { s with k := k', wErr := e' } ∧ (t.1 = true → e' = eOK) ∧
      (t.1 = false → e' ≠ eOK)) := by
    obtain ⟨h1, h2, h3⟩ := slWrite_spec E (slTagLen s.encType) { s with k := s.k + 1 } (by omega)
    unfold slWriteTag
    rw [if_neg (by omega)]
    split
    · exact SlOk.pure ⟨_, _, rfl, fun h => by simp at h, fun _ => eOK_ne.2.2.1⟩
    · dsimp only
      refine SlOk.pure ⟨_, _, h1, fun h => ?_, fun h => ?_⟩
      · rw [h3 (by simpa using h)]; exact hs.ok
      · rw [h2 (by simpa using h)]; exact eOK_ne.2.2.2.2.2.1
  refine SlOk.bind hW ?_
  rintro ⟨t, s1⟩ ⟨k', e', h1, ht, hf⟩
  dsimp only at h1 ht hf ⊢
  subst h1
  split
  · rename_i hb
    exact SlOk.pure ⟨rfl, hs.tot, fun _ => hs.on, fun _ _ => hty, fun _ => hf hb, fun h => by dsimp only at h; omega⟩
  · rename_i hb
    have he' : e' = eOK := ht (by simpa using hb)
    subst he'
    have hI : SlOk (slEncIv E { s with k := k', wErr := eOK }) (fun c => SlWFrame s c.2 ∧ c.2.totW = s.totW ∧
        (c.1 = true → c.2.encOn = true ∧ c.2.wErr = eOK) ∧ (c.2.encOn = true → c.2.encType = ENC_AES128_GCM)) := by
      unfold slEncIv
      split
      · exact SlOk.pure ⟨rfl, rfl, fun _ => ⟨hs.on, rfl⟩, fun _ => hty⟩
      · unfold slEncStart slEncReset
        rw [if_neg (by simp)]
        simp only [bind, Except.bind]
        split
        · rename_i hno
          exact SlOk.pure ⟨rfl, rfl, fun h => absurd (h.symm.trans hno) (by decide), fun _ => henc⟩
        · rename_i hok
          have hok : (E k').ok = true := by simpa using hok
          obtain ⟨h1, h2, h3⟩ := slWrite_spec E kTagLen { s with k := k' + 1, wErr := eOK, encType := s.enc, encOn := (E k').ok, encNum := 0 } (by decide)
          refine SlOk.pure ⟨?_, ?_, fun h => ⟨?_, ?_⟩, fun _ => ?_⟩
          · unfold SlWFrame; dsimp only; rw [h1]
          · dsimp only; rw [h1]
          · dsimp only; rw [h1]; exact hok
          · exact h3 (by simpa using h)
          · dsimp only; rw [h1]; exact henc
    refine SlOk.bind hI ?_
    rintro ⟨c, s2⟩ ⟨hc1, hc2, hc3, hc4⟩
    dsimp only at hc1 hc2 hc3 hc4 ⊢
    have htot := hs.tot
    split
    · refine SlOk.pure ⟨?_, by dsimp only; omega, fun h => absurd h eOK_ne.2.2.1, fun h _ => hc4 h, fun _ => eOK_ne.2.2.1, fun h => by dsimp only at h; omega⟩
      unfold SlWFrame at *; dsimp only; rw [hc1]
    · rename_i hcb
      obtain ⟨hon2, he2⟩ := hc3 (by simpa using hcb)
      have hg2 : SlWGood s2 := ⟨by rw [hc1.enc]; exact hs.enc, hon2, fun _ => ⟨hc4 hon2, by rw [hc1.enc]; exact henc⟩, by omega, he2⟩
      exact (slWriteRest_post E n done s2 hd hn hg2).mono fun r hr =>
        ⟨hc1.trans hr.frame, hr.tot, hr.on, fun h h' => hr.type h (by rw [hc1.wTag]; exact h'), hr.fail, hr.full⟩

theorem slWriteWithTag_post (E : Nat → SlEv) (n : Int) (s : SlSock) (hn : 0 < n) (hT : 0 < s.wTag) (hnT : n ≤ s.wTag)
    (hs : SlWGood s) : SlOk (slWriteWithTag E n s) (SlWPost n s) := by
  obtain ⟨ho1, ho2, ho3⟩ := nextTagOffset_spec s.totW s.wTag hs.tot hT
  unfold slWriteWithTag
  rw [if_neg (by omega)]
  dsimp only
  split
  · rename_i hlt
    split
    · rename_i hpos
      refine SlOk.bind (slEncrypt_post E _ s hpos hs) ?_
      rintro ⟨w, s'⟩ ⟨hp, ht⟩
      have hfr := hp.frame
      have htot := hs.tot
      dsimp only at hfr ht ⊢
      split
      · rename_i h
        exact SlOk.pure ⟨hfr, hp.tot, hp.on, hp.type, fun _ => hp.fail h, fun h' => by dsimp only at h'; omega⟩
      · rename_i h
        have h := Decidable.not_not.1 h
        have hg := SlWPost.good hs hp h
        have hfr2 : SlWFrame s { s' with totW := s'.totW + w } := by unfold SlWFrame at *; dsimp only; rw [hfr]
        have hg2 : SlWGood { s' with totW := s'.totW + w } := ⟨hg.enc, hg.on, hg.type, by dsimp only; omega, hg.ok⟩
        refine (slWriteFromTag_post E n _ _ ho1 hlt hg2 (by rw [hfr2.wTag]; exact hT) ?_).mono
            fun a ha => ⟨hfr2.trans ha.frame, ha.tot, ha.on, fun h h' => ha.type h (by rw [hfr2.wTag]; exact h'), ha.fail, ha.full⟩
        rw [hfr2.wTag]
        dsimp only
        rw [ht, h]
        exact ho3
    · rename_i hpos
      have h0 : computeNextTagOffset s.totW s.wTag = 0 := by omega
      rw [h0, Int.add_zero] at ho3
      exact slWriteFromTag_post E n 0 s (by omega) hn hs hT ho3
  · exact slWriteRest_post E n 0 s (by omega) hn hs

theorem slWriteLoop_post (E : Nat → SlEv) (n : Int) : ∀ (fuel : Nat) (done : Int) (s : SlSock), 0 ≤ done → done ≤ n →
    n - done ≤ fuel → 0 < n → 0 < s.wTag → SlWGood s → SlOk (slWriteLoop E n fuel done s) (SlWPost n s) := by
  intro fuel
  induction fuel with
  | zero =>
    intro done s hd hle hfu hn hT hs
    push_cast at hfu
    unfold slWriteLoop
    rw [if_neg (by omega)]
    exact SlOk.pure ⟨rfl, hs.tot, fun _ => hs.on, fun _ h => (hs.type h).1, fun h => by dsimp only at h; omega, fun _ => hs.ok⟩
  | succ fuel ih =>
    intro done s hd hle hfu hn hT hs
    push_cast at hfu
    unfold slWriteLoop
    split
    · dsimp only
      refine SlOk.bind (slWriteWithTag_post E (min (n - done) s.wTag) s (by omega) hT (by omega) hs) ?_
      rintro ⟨w, s'⟩ hp
      have hfr := hp.frame
      dsimp only at hfr ⊢
      split
      · rename_i h
        exact SlOk.pure ⟨hfr, hp.tot, hp.on, hp.type, fun _ => hp.fail h, fun h' => by dsimp only at h'; omega⟩
      · rename_i h
        have h := Decidable.not_not.1 h
        exact (ih (done + w) s' (by omega) (by omega) (by omega) hn (by rw [hfr.wTag]; exact hT) (SlWPost.good hs hp h)).mono
          fun a ha => ⟨hfr.trans ha.frame, ha.tot, ha.on, fun h h' => ha.type h (by rw [hfr.wTag]; exact h'), ha.fail, ha.full⟩
    · exact SlOk.pure ⟨rfl, hs.tot, fun _ => hs.on, fun _ h => (hs.type h).1, fun h => by dsimp only at h; omega, fun _ => hs.ok⟩

/-- what holds between the calls, about what is read -/
structure SlRInv (s : SlSock) : Prop where
  sec : s.enc ≠ 0 → s.secret = true
  off : s.rSet = false → s.decOn = false
  type : s.decOn = true → s.enc ≠ 0 → s.decType = s.enc
  tag : s.rSet = true → s.enc ≠ 0 → 0 < s.rTag → s.enc = ENC_AES128_GCM
  tot : 0 ≤ s.totR
  on : s.rFin = false → SlGoesOn s → s.rSet = true → s.enc ≠ 0 → s.decOn = true

/-- what holds between the calls, about what is written -/
structure SlWInv (s : SlSock) : Prop where
  tag : 0 < s.wTag → s.enc ≠ 0 → s.enc = ENC_AES128_GCM
  type : s.encOn = true → 0 < s.wTag → s.encType = ENC_AES128_GCM
  tot : 0 ≤ s.totW
  off : s.wFin = false → s.wErr = eOK → s.wSet = false → s.encOn = false
  on : s.wFin = false → s.wErr = eOK → s.wSet = true → s.enc ≠ 0 → s.encOn = true

/-- a read may change this much -/
def SlRStep (s s' : SlSock) : Prop :=
  s' = { s with k := s'.k, rErr := s'.rErr, totR := s'.totR, decOn := s'.decOn, decType := s'.decType, decNum := s'.decNum
                rSet := s'.rSet, rTag := s'.rTag, enc := s'.enc, secret := s'.secret } ∧
    (s'.enc = s.enc ∧ s'.secret = s.secret ∨ s.plainPeer = true ∧ s'.enc = 0)

/-- a write may change this much -/
def SlWStep (s s' : SlSock) : Prop :=
  s' = { s with k := s'.k, wErr := s'.wErr, totW := s'.totW, encOn := s'.encOn, encType := s'.encType, encNum := s'.encNum
                wSet := s'.wSet }

theorem SlWInv.rstep {s s' : SlSock} (h : SlWInv s) (hs : SlRStep s s') : SlWInv s' := by
  obtain ⟨e, he⟩ := hs
  have a1 : s'.wTag = s.wTag := by rw [e]
  have a2 : s'.encOn = s.encOn := by rw [e]
  have a3 : s'.encType = s.encType := by rw [e]
  have a4 : s'.totW = s.totW := by rw [e]
  have a5 : s'.wFin = s.wFin := by rw [e]
  have a6 : s'.wErr = s.wErr := by rw [e]
  have a7 : s'.wSet = s.wSet := by rw [e]
  refine ⟨?_, ?_, ?_, ?_, ?_⟩
  · rw [a1]
    intro h1 h2
    rcases he with ⟨h3, _⟩ | ⟨_, h3⟩
    · rw [h3] at h2 ⊢; exact h.tag h1 h2
    · exact absurd h3 h2
  · rw [a1, a2, a3]; exact h.type
  · rw [a4]; exact h.tot
  · rw [a5, a6, a7, a2]; exact h.off
  · rw [a5, a6, a7, a2]
    intro h1 h2 h3 h4
    rcases he with ⟨h5, _⟩ | ⟨_, h5⟩
    · rw [h5] at h4; exact h.on h1 h2 h3 h4
    · exact absurd h5 h4

theorem SlRInv.wstep {s s' : SlSock} (h : SlRInv s) (e : SlWStep s s') : SlRInv s' := by
  have a1 : s'.enc = s.enc := by rw [e]
  have a2 : s'.secret = s.secret := by rw [e]
  have a3 : s'.rSet = s.rSet := by rw [e]
  have a4 : s'.decOn = s.decOn := by rw [e]
  have a5 : s'.decType = s.decType := by rw [e]
  have a6 : s'.rTag = s.rTag := by rw [e]
  have a7 : s'.totR = s.totR := by rw [e]
  have a8 : s'.rFin = s.rFin := by rw [e]
  have a9 : s'.rErr = s.rErr := by rw [e]
  refine ⟨?_, ?_, ?_, ?_, ?_, ?_⟩
  · rw [a1, a2]; exact h.sec
  · rw [a3, a4]; exact h.off
  · rw [a4, a1, a5]; exact h.type
  · rw [a3, a1, a6]; exact h.tag
  · rw [a7]; exact h.tot
  · unfold SlGoesOn; rw [a8, a9, a3, a1, a4]; exact h.on

/-- after a read of `n` bytes -/
structure ROpPost (n : Int) (s : SlSock) (r : Int × SlSock) : Prop where
  step : SlRStep s r.2
  inv : SlRInv r.2
  fail : r.1 ≤ 0 → r.2.rErr ≠ eOK

theorem slReadSettings_post (E : Nat → SlEv) (s : SlSock) (h : SlRInv s) (he : s.rErr = eOK) (hf : s.rFin = false) :
    SlOk (slReadSettings E s) (fun s' => SlRStep s s' ∧ SlRInv s' ∧ s'.enc = s.enc ∧
      (s'.rErr = eUNEXPECTED_CMD_ERROR → s'.rSet = false) ∧ (s'.rErr = eOK → s.enc ≠ 0 → s'.rSet = true)) := by
  unfold slReadSettings
  split
  · rename_i h0
    refine SlOk.pure ⟨⟨rfl, .inl ⟨rfl, rfl⟩⟩, h, rfl, fun h' => absurd (he.symm.trans h') (by decide), fun _ h2 => ?_⟩
    rcases h0 with h0 | h0
    · exact absurd h0 h2
    · exact h0
  · rename_i h0
    have hen : s.enc ≠ 0 := fun h' => h0 (.inl h')
    have hrs : s.rSet = false := by
      cases hb : s.rSet
      · rfl
      · exact absurd (.inr hb) h0
    have hoff := h.off hrs
    rw [if_neg (by rw [h.sec hen]; decide)]
    obtain ⟨h1, h2, h3, h4⟩ := slRead_spec E 1 s
    dsimp only
    -- any state with nothing but error code, tag interval and counter changed
    have key : ∀ k' e' t', SlRStep s { s with k := k', rErr := e', rTag := t' } ∧ SlRInv { s with k := k', rErr := e', rTag := t' } := by
      intro k' e' t'
      refine ⟨⟨rfl, .inl ⟨rfl, rfl⟩⟩, h.sec, h.off, h.type, fun h' => ?_, h.tot, fun _ _ h' => ?_⟩
      · dsimp only at h'; rw [hrs] at h'; cases h'
      · dsimp only at h'; rw [hrs] at h'; cases h'
    split
    · rename_i hr1
      rw [h1]
      have hk := key (s.k + 1) (slRead E 1 s).2.rErr s.rTag
      refine SlOk.pure ⟨hk.1, hk.2, rfl, fun _ => hrs, fun h' => ?_⟩
      exact absurd h' (h2 (by have := h4 (by omega); omega))
    · rename_i hr1
      split
      · rw [h1]
        have hk := key (s.k + 1) eUNEXPECTED_CMD_ERROR s.rTag
        exact SlOk.pure ⟨hk.1, hk.2, rfl, fun _ => hrs, fun h' => absurd h' eOK_ne.2.2.2.2.2.2.2.1⟩
      · obtain ⟨g1, g2, g3, g4⟩ := slRead_spec E (kEncryptionCmdLen - 1) (slRead E 1 s).2
        split
        · rw [g1, h1]
          have hk := key (s.k + 1 + 1) eSOCKET_READ_ERROR s.rTag
          exact SlOk.pure ⟨hk.1, hk.2, rfl, fun _ => hrs, fun h' => absurd h' eOK_ne.1⟩
        · rename_i hg
          split
          · rw [g1, h1]
            have hk := key (s.k + 1 + 1 + 1) ePROTOCOL_ERROR (E (s.k + 1 + 1)).tag
            exact SlOk.pure ⟨hk.1, hk.2, rfl, fun _ => hrs, fun h' => absurd h' eOK_ne.2.2.2.2.2.2.1⟩
          · rename_i hc
            unfold slDecStart
            rw [if_neg (by dsimp only; rw [g1, h1, hoff]; decide)]
            simp only [bind, Except.bind]
            have hgt : (slRead E (kEncryptionCmdLen - 1) (slRead E 1 s).2).2.rErr = eOK :=
              g3 (by have : (0 : Int) < kEncryptionCmdLen - 1 := by decide
                     omega)
            split
            · rename_i hok
              refine SlOk.pure ⟨⟨?_, .inl ⟨?_, ?_⟩⟩, ⟨?_, ?_, ?_, ?_, ?_, ?_⟩, ?_, fun h' => ?_, fun _ _ => rfl⟩
              · dsimp only; rw [g1, h1]
              · dsimp only; rw [g1, h1]
              · dsimp only; rw [g1, h1]
              · dsimp only; rw [g1, h1]; exact h.sec
              · intro h'; simp at h'
              · intro _ _; rfl
              · intro _ _ h6
                dsimp only at h6 ⊢
                have hne : ¬ (slTagLen s.enc = 0) := fun h7 => hc (.inr (.inr ⟨h6, h7⟩))
                rw [g1, h1]
                dsimp only
                unfold slTagLen at hne
                by_cases h8 : s.enc = ENC_AES128_GCM
                · exact h8
                · rw [if_neg h8] at hne; exact absurd rfl hne
              · dsimp only; rw [g1, h1]; exact h.tot
              · intro _ _ _ _; exact hok
              · dsimp only; rw [g1, h1]
              · dsimp only at h'; rw [hgt] at h'; exact absurd h' (by decide)
            · rename_i hok
              refine SlOk.pure ⟨⟨?_, .inl ⟨?_, ?_⟩⟩, ⟨?_, ?_, ?_, ?_, ?_, ?_⟩, ?_, fun h' => absurd h' eENC_ne_UNEXP, fun h' => absurd h' eOK_ne.2.2.1⟩
              · dsimp only; rw [g1, h1]
              · dsimp only; rw [g1, h1]
              · dsimp only; rw [g1, h1]
              · dsimp only; rw [g1, h1]; exact h.sec
              · intro _; dsimp only; simpa using hok
              · intro _ _; rfl
              · intro h5
                dsimp only at h5
                rw [g1, h1] at h5
                dsimp only at h5
                rw [hrs] at h5
                cases h5
              · dsimp only; rw [g1, h1]; exact h.tot
              · intro _ h5
                exact h5.elim (fun h => absurd h eOK_ne.2.2.1) (fun h => absurd h eOK_ne.2.2.2.1)
              · dsimp only; rw [g1, h1]

theorem slReadOp_post (E : Nat → SlEv) (n : Int) (s : SlSock) (hn : 0 < n) (h : SlRInv s) (hf : s.rFin = false) :
    SlOk (slReadOp E n s) (ROpPost n s) := by
  unfold slReadOp
  rw [if_neg (by omega)]
  split
  · rename_i he
    exact SlOk.pure ⟨⟨rfl, .inl ⟨rfl, rfl⟩⟩, h, fun _ => he.1⟩
  · rename_i he
    have hgo : SlGoesOn s := by
      unfold SlGoesOn
      by_cases h1 : s.rErr = eOK
      · exact .inl h1
      · by_cases h2 : s.rErr = eWDT_TIMEOUT
        · exact .inr h2
        · exact absurd ⟨h1, h2⟩ he
    have h0 : SlRInv { s with rErr := eOK } := ⟨h.sec, h.off, h.type, h.tag, h.tot, fun a _ b c => h.on a hgo b c⟩
    refine SlOk.bind (slReadSettings_post E _ h0 rfl hf) ?_
    rintro s1 ⟨⟨st1, st2⟩, hi, hen, hun, hset⟩
    dsimp only at st1 st2 hen hset
    have hstep : SlRStep s s1 := ⟨by rw [st1], st2⟩
    have hf1 : s1.rFin = false := by rw [st1]; exact hf
    split
    · rename_i hc
      have hrs := hun hc.2
      have hoff := hi.off hrs
      unfold slReadBody
      rw [if_pos rfl]
      dsimp only
      obtain ⟨g1, g2, g3, g4⟩ := slRead_spec E (n - 1) { s1 with rErr := eOK, enc := 0, secret := false }
      have hinv : SlRInv (slRead E (n - 1) { s1 with rErr := eOK, enc := 0, secret := false }).2 := by
        rw [g1]
        exact ⟨fun h' => absurd rfl h', fun _ => hoff, fun _ h' => absurd rfl h', fun _ h' => absurd rfl h', hi.tot, fun _ _ _ h' => absurd rfl h'⟩
      have hst : SlRStep s (slRead E (n - 1) { s1 with rErr := eOK, enc := 0, secret := false }).2 := by
        refine ⟨?_, .inr ⟨?_, ?_⟩⟩
        · rw [g1]; dsimp only; rw [st1]
        · have := hc.1; rw [st1] at this; exact this
        · rw [g1]
      split
      · refine SlOk.pure ⟨hst, hinv, fun h' => ?_⟩
        dsimp only at h'; omega
      · refine SlOk.pure ⟨hst, hinv, fun h' => ?_⟩
        dsimp only at h'; split at h' <;> omega
    · split
      · rename_i hc
        exact SlOk.pure ⟨hstep, hi, fun _ => hc⟩
      · rename_i hc
        have hc : s1.rErr = eOK := by simpa using hc
        unfold slReadBody
        by_cases hz : s1.enc = 0
        · rw [if_pos hz]
          dsimp only
          obtain ⟨g1, g2, g3, g4⟩ := slRead_spec E (n - 0) s1
          have hinv : SlRInv (slRead E (n - 0) s1).2 := by
            rw [g1]
            exact ⟨hi.sec, hi.off, hi.type, hi.tag, hi.tot, fun _ _ _ h' => absurd hz h'⟩
          have hst : SlRStep s (slRead E (n - 0) s1).2 := by
            refine ⟨?_, ?_⟩
            · rw [g1]; dsimp only; rw [st1]
            · rw [g1]; exact hstep.2
          split
          · refine SlOk.pure ⟨hst, hinv, fun h' => ?_⟩
            dsimp only at h'
            exact g2 (by omega)
          · refine SlOk.pure ⟨hst, hinv, fun h' => g2 (by omega)⟩
        · rw [if_neg hz, if_neg (by simp)]
          have hs0 : s.enc ≠ 0 := by rw [← hen]; exact hz
          have hrs := hset hc hs0
          have hon := hi.on hf1 (.inl hc) hrs hz
          have hg : SlRGood s1 := ⟨hz, hon, hi.type hon hz, hi.tag hrs hz, hi.tot⟩
          have fin : ∀ r : Int × SlSock, SlRPost n s1 r → ROpPost n s r := by
            intro r hr
            have e := hr.frame
            refine ⟨⟨?_, ?_⟩, ⟨?_, ?_, ?_, ?_, hr.tot, ?_⟩, hr.fail⟩
            · unfold SlRFrame at e; rw [e]; dsimp only; rw [st1]
            · unfold SlRFrame at e; rw [e]; exact hstep.2
            · unfold SlRFrame at e; rw [e]; exact hi.sec
            · intro h'
              have : r.2.rSet = s1.rSet := by unfold SlRFrame at e; rw [e]
              rw [this, hrs] at h'; cases h'
            · intro h' _; exact hr.type h'
            · unfold SlRFrame at e; rw [e]; exact hi.tag
            · intro _ h' _ _; exact hr.on h'
          split
          · exact (slDecrypt_post E n s1 hn hg).mono fun r hr => fin r hr.1
          · exact (slReadLoop_post E n n.toNat 0 s1 (by omega) (by omega) (by omega) hn (by omega) hc hg).mono fin

/-- after a write of `n` bytes -/
structure WOpPost (n : Int) (s : SlSock) (r : Int × SlSock) : Prop where
  step : SlWStep s r.2
  inv : SlWInv r.2
  fail : r.1 ≠ n → r.2.wErr ≠ eOK

theorem slWriteOp_post (E : Nat → SlEv) (n : Int) (s : SlSock) (hn : 0 < n) (h : SlWInv s) (hr : SlRInv s) (hf : s.wFin = false) :
    SlOk (slWriteOp E n s) (WOpPost n s) := by
  unfold slWriteOp
  rw [if_neg (by omega)]
  split
  · rename_i he
    exact SlOk.pure ⟨rfl, h, fun _ => he⟩
  · rename_i he
    have he : s.wErr = eOK := by simpa using he
    have hS : SlOk (slWriteSettings E s) (fun s' => SlWStep s s' ∧ SlWInv s' ∧ (s'.wErr = eOK → s.enc ≠ 0 → s'.wSet = true)) := by
      unfold slWriteSettings
      split
      · rename_i h0
        refine SlOk.pure ⟨rfl, h, fun _ h2 => ?_⟩
        rcases h0 with h0 | h0
        · exact absurd h0 h2
        · exact h0
      · rename_i h0
        have hen : s.enc ≠ 0 := fun h' => h0 (.inl h')
        have hws : s.wSet = false := by
          cases hb : s.wSet
          · rfl
          · exact absurd (.inr hb) h0
        rw [if_neg (by rw [hr.sec hen]; decide)]
        unfold slEncStart
        rw [if_neg (by rw [h.off hf he hws]; decide)]
        simp only [bind, Except.bind]
        split
        · rename_i hok
          refine SlOk.pure ⟨rfl, ⟨h.tag, fun h' => ?_, h.tot, fun _ h' => absurd h' eOK_ne.2.2.1, fun _ h' => absurd h' eOK_ne.2.2.1⟩, fun h' => absurd h' eOK_ne.2.2.1⟩
          dsimp only at h' hok; rw [hok] at h'; cases h'
        · rename_i hok
          obtain ⟨g1, g2, g3⟩ := slWrite_spec E kEncryptionCmdLen { s with k := s.k + 1, encType := s.enc, encOn := (E s.k).ok } (by decide)
          split
          · rename_i hw
            have hE := g2 hw
            refine SlOk.pure ⟨?_, ⟨?_, ?_, ?_, fun _ h' => ?_, fun _ h' => ?_⟩, fun h' => ?_⟩
            · unfold SlWStep; rw [g1]
            · rw [g1]; exact h.tag
            · rw [g1]; exact fun _ h' => h.tag h' hen
            · rw [g1]; exact h.tot
            · rw [hE] at h'; exact absurd h' eOK_ne.2.2.2.2.2.1
            · rw [hE] at h'; exact absurd h' eOK_ne.2.2.2.2.2.1
            · rw [hE] at h'; exact absurd h' eOK_ne.2.2.2.2.2.1
          · refine SlOk.pure ⟨?_, ⟨?_, ?_, ?_, fun _ _ h' => ?_, fun _ _ _ _ => ?_⟩, fun _ _ => rfl⟩
            · unfold SlWStep; dsimp only; rw [g1]
            · dsimp only; rw [g1]; exact h.tag
            · dsimp only; rw [g1]; exact fun _ h' => h.tag h' hen
            · dsimp only; rw [g1]; exact h.tot
            · simp at h'
            · dsimp only; rw [g1]; simpa using hok
    refine SlOk.bind hS ?_
    rintro s1 ⟨hst, hi, hset⟩
    have hf1 : s1.wFin = false := by rw [hst]; exact hf
    have hen : s1.enc = s.enc := by rw [hst]
    split
    · rename_i hc
      exact SlOk.pure ⟨hst, hi, fun _ => hc⟩
    · rename_i hc
      have hc : s1.wErr = eOK := by simpa using hc
      by_cases hz : s1.enc = 0
      · rw [if_pos hz]
        obtain ⟨g1, g2, g3⟩ := slWrite_spec E n s1 hn
        refine SlOk.pure ⟨?_, ⟨?_, ?_, ?_, ?_, ?_⟩, fun h' => by rw [g2 h']; exact eOK_ne.2.2.2.2.2.1⟩
        · unfold SlWStep at *; rw [g1]; dsimp only; rw [hst]
        · rw [g1]; exact hi.tag
        · rw [g1]; exact hi.type
        · rw [g1]; exact hi.tot
        · rw [g1]; exact fun a _ c => hi.off a hc c
        · rw [g1]; exact fun _ _ _ h' => absurd hz h'
      · rw [if_neg hz]
        have hws := hset hc (by rw [← hen]; exact hz)
        have hon := hi.on hf1 hc hws hz
        have hg : SlWGood s1 := ⟨hz, hon, fun hT => ⟨hi.type hon hT, hi.tag hT hz⟩, hi.tot, hc⟩
        have fin : ∀ r : Int × SlSock, SlWPost n s1 r → WOpPost n s r := by
          intro r hr
          have e := hr.frame
          have b1 : r.2.wTag = s1.wTag := by rw [e]
          have b2 : r.2.wSet = s1.wSet := by rw [e]
          refine ⟨?_, ⟨?_, ?_, hr.tot, ?_, ?_⟩, hr.fail⟩
          · unfold SlWStep SlWFrame at *; rw [e]; dsimp only; rw [hst]
          · rw [b1, e.enc]; exact hi.tag
          · rw [b1]; exact hr.type
          · intro _ _ h'; rw [b2, hws] at h'; cases h'
          · intro _ h' _ _; exact hr.on h'
        split
        · exact (slEncrypt_post E n s1 hn hg).mono fun r hr => fin r hr.1
        · exact (slWriteLoop_post E n n.toNat 0 s1 (by omega) (by omega) (by omega) hn (by omega) hg).mono fin

end Wdt
