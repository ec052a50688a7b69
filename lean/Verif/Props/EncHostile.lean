import Verif.Lemmas.SockBack
import Verif.Props.EncCheck
import Verif.Props.EncReceive
/-
C98: what somebody on the network who does not have the secret can make a receiver
thread with encryption do.

The receiver thread of `Model/SockReceive.lean` on the encrypted socket, on arbitrary
arrived bytes, with timeouts.
-/
namespace Wdt

/-! ### Return values of the reads -/

/-- A return value that counts the bytes. -/
def RetOK (n ret : Int) (d : Bytes) : Prop := (ret ≤ 0 → d = []) ∧ (0 < ret → ret = d.length ∧ ret ≤ n)

theorem readInternal_ret {io : Nat → Option Nat} {n : Int} {full : Bool} {r : EncR} :
    RetOK n (readInternal io n full r).1 (readInternal io n full r).2.1 := by
  rcases readInternal_cases io n full r with ⟨h1, h2, _⟩ | ⟨h1, h2, h3, _⟩
  · exact ⟨fun _ => h2, fun h => by omega⟩
  · have : 0 < (readInternal io n full r).2.1.length := List.length_pos_iff.2 h1
    exact ⟨fun h => by omega, fun _ => ⟨h2, by omega⟩⟩

theorem readAndDecrypt_ret {C : Cipher} {io : Nat → Option Nat} {n : Int} {full : Bool} {r r' : EncR} {ret : Int} {d : Bytes}
    (h : readAndDecrypt C io n full r = .ok (ret, d, r')) : 0 < n ∧ RetOK n ret d := by
  have hr := readInternal_ret (io := io) (n := n) (full := full) (r := r)
  unfold readAndDecrypt at h
  by_cases hn : n ≤ 0
  · rw [if_pos hn] at h; cases h
  rw [if_neg hn] at h
  refine ⟨by omega, ?_⟩
  by_cases h1 : (readInternal io n full r).1 ≤ 0
  · rw [if_pos h1] at h
    generalize readInternal io n full r = q at *
    obtain ⟨q1, q2, q3⟩ := q
    cases h
    exact hr
  · rw [if_neg h1] at h
    generalize readInternal io n full r = q at *
    obtain ⟨q1, q2, q3⟩ := q
    simp only at *
    cases h
    refine ⟨fun hc => absurd hc h1, fun hp => ?_⟩
    rw [encBytes_length]
    exact hr.2 hp

theorem readRest_ret {C : Cipher} {io : Nat → Option Nat} {n : Int} {full : Bool} {got : Bytes} {r r' : EncR} {ret : Int} {d : Bytes}
    (h : readRest C io n full got r = .ok (ret, d, r')) : RetOK n ret d := by
  unfold readRest at h
  cases hr : readAndDecrypt C io (n - got.length) full r with
  | error f => rw [hr] at h; cases h
  | ok q =>
    obtain ⟨ret1, d1, r1⟩ := q
    rw [hr] at h
    obtain ⟨hn, h0, h1⟩ := readAndDecrypt_ret hr
    simp only at h
    by_cases hle : ret1 ≤ 0
    · rw [if_pos hle] at h
      by_cases hg : (got.length : Int) > 0
      · rw [if_pos hg] at h
        cases h
        exact ⟨fun hc => by omega, fun _ => ⟨rfl, by omega⟩⟩
      · rw [if_neg hg] at h
        cases h
        exact ⟨fun _ => rfl, fun hc => by omega⟩
    · rw [if_neg hle] at h
      cases h
      obtain ⟨h2, h3⟩ := h1 (by omega)
      refine ⟨fun hc => by omega, fun _ => ⟨?_, by omega⟩⟩
      rw [List.length_append, h2]; omega

theorem readFromTag_ret {C : Cipher} {io : Nat → Option Nat} {T I n : Int} {full : Bool} {got : Bytes} {r r' : EncR} {ret : Int}
    {d : Bytes} (h : readFromTag C io T I n full got r = .ok (ret, d, r')) : RetOK n ret d := by
  unfold readFromTag at h
  split at h
  · cases h
  split at h
  · cases h; exact ⟨fun _ => rfl, fun hc => by omega⟩
  · exact readRest_ret h

theorem readAndDecryptWithTag_ret {C : Cipher} {io : Nat → Option Nat} {T I n : Int} {full : Bool} {r r' : EncR} {ret : Int}
    {d : Bytes} (h : readAndDecryptWithTag C io T I n full r = .ok (ret, d, r')) : RetOK n ret d := by
  unfold readAndDecryptWithTag at h
  split at h
  · cases h
  split at h
  · cases h
  split at h
  next hlt =>
    split at h
    next hpos =>
      split at h
      · cases h
      next ret1 d1 r1 he =>
        obtain ⟨_, h0, h1⟩ := readAndDecrypt_ret he
        split at h
        · cases h; exact ⟨fun _ => rfl, fun hc => by omega⟩
        split at h
        · cases h
          exact ⟨h0, fun hp => ⟨(h1 hp).1, by omega⟩⟩
        · exact readFromTag_ret h
    next => exact readFromTag_ret h
  next => exact readRest_ret h

theorem readTagLoop_ret {C : Cipher} {io : Nat → Option Nat} {T I n : Int} {full : Bool} : ∀ (fuel : Nat) (got : Bytes) (r : EncR)
    (ret : Int) (d : Bytes) (r' : EncR), (got.length : Int) ≤ n →
    readTagLoop C io T I n full fuel got r = .ok (ret, d, r') → RetOK n ret d := by
  intro fuel
  induction fuel with
  | zero => intro got r ret d r' _ h; cases h
  | succ fuel ih =>
    intro got r ret d r' hg h
    unfold readTagLoop at h
    split at h
    next hlt =>
      split at h
      · cases h
      next ret1 d1 r1 he =>
        obtain ⟨h0, h1⟩ := readAndDecryptWithTag_ret he
        by_cases hle : ret1 ≤ 0
        · rw [if_pos hle] at h
          by_cases hp : (got.length : Int) > 0
          · rw [if_pos hp] at h
            cases h
            exact ⟨fun hc => by omega, fun _ => ⟨rfl, hg⟩⟩
          · rw [if_neg hp] at h
            cases h
            exact ⟨fun _ => rfl, fun hc => by omega⟩
        · rw [if_neg hle] at h
          obtain ⟨h2, h3⟩ := h1 (by omega)
          by_cases hs : ret1 < min (n - (got.length : Int)) T
          · rw [if_pos hs] at h
            cases h
            refine ⟨fun hc => by omega, fun _ => ⟨?_, by omega⟩⟩
            rw [List.length_append, h2]; omega
          · rw [if_neg hs] at h
            refine ih _ _ _ _ _ ?_ h
            rw [List.length_append]; omega
    next hlt =>
      cases h
      refine ⟨fun hc => ?_, fun _ => ⟨rfl, hg⟩⟩
      exact List.length_eq_zero_iff.1 (by omega)

theorem encRead_ret {C : Cipher} {io : Nat → Option Nat} {T I n : Int} {full : Bool} {r r' : EncR} {ret : Int}
    {d : Bytes} (h : encRead C io T I n full r = .ok (ret, d, r')) : RetOK n ret d := by
  unfold encRead at h
  split at h
  · cases h
  split at h
  · cases h; exact ⟨fun _ => rfl, fun hc => by omega⟩
  split at h
  · exact (readAndDecrypt_ret h).2
  · exact readTagLoop_ret _ [] _ _ _ _ (by simp; omega) h

/-! ### The socket on arbitrary bytes -/

/-- `Accepts C t junk I inp P`: `inp` is a connection on which the socket may hand out
`P`.  Either the connection is in the clear, or the settings came first and what follows
is an encryption of `P` in which every byte at a tag position follows a right tag. -/
inductive Accepts (C : Cipher) (t : Int) (junk : UInt8) (I : Int) (inp : Bytes) : Bytes → Prop
  | nothing : Accepts C t junk I inp []
  | clear {P rest : Bytes} : inp = P ++ rest → inp.head? ≠ some ENCRYPTION_CMD → Accepts C t junk I inp P
  | encrypted {P iv : Bytes} {T : Int} {o : Int} {st' : EncSt} {rest : Bytes} : inp.head? = some ENCRYPTION_CMD →
      decodeEncryptionSettings ((inp.drop 1).take 22 ++ [junk]) 0 kEncryptionCmdLen = .ok (some (t, iv, T), o) →
      iv.length = kTagLen → 0 ≤ T → (0 < T → t = ENC_AES128_GCM) →
      Decodes C T I { iv := iv } (inp.drop 23) P st' rest → Accepts C t junk I inp P

/-- What is known of the socket when it has handed out `P`. -/
inductive Got (C : Cipher) (t : Int) (junk : UInt8) (I : Int) (inp : Bytes) : Bytes → SrvSock → Prop
  | start {r : EncR} : r.net.rest = inp → r.st = { iv := [] } → Got C t junk I inp [] { encOn := true, settings := none, r := r }
  | dead {s : SrvSock} : s.encOn = true → s.settings = none → Dead s.r → Got C t junk I inp [] s
  | clear {P : Bytes} {s : SrvSock} : s.encOn = false → inp = P ++ s.r.net.rest → inp.head? ≠ some ENCRYPTION_CMD →
      Got C t junk I inp P s
  | encrypted {P iv : Bytes} {T : Int} {o : Int} {r : EncR} : inp.head? = some ENCRYPTION_CMD →
      decodeEncryptionSettings ((inp.drop 1).take 22 ++ [junk]) 0 kEncryptionCmdLen = .ok (some (t, iv, T), o) →
      iv.length = kTagLen → 0 ≤ T → (0 < T → t = ENC_AES128_GCM) →
      After C T I { iv := iv } (inp.drop 23) P r → Got C t junk I inp P { encOn := true, settings := some T, r := r }

theorem Got.accepts {C : Cipher} {t : Int} {junk : UInt8} {I : Int} {inp P : Bytes} {s : SrvSock} (h : Got C t junk I inp P s) :
    Accepts C t junk I inp P := by
  cases h with
  | start => exact .nothing
  | dead => exact .nothing
  | clear _ h1 h2 => exact .clear h1 h2
  | encrypted h1 h2 h3 h4 h5 h6 =>
    rcases h6 with ⟨_, _, st', inp', hd, _⟩ | ⟨_, st', inp', hd⟩
    · exact .encrypted h1 h2 h3 h4 h5 hd
    · exact .encrypted h1 h2 h3 h4 h5 hd

theorem srvRead_clear {C : Cipher} {t : Int} {junk : UInt8} {io : Nat → Option Nat} {I n ret : Int} {full : Bool} {s s' : SrvSock}
    {d : Bytes} (hs : s.encOn = false) (h : srvRead C t junk io I n full s = .ok (ret, d, s')) :
    RetOK n ret d ∧ s'.encOn = false ∧ s.r.net.rest = d ++ s'.r.net.rest := by
  have hz : RetOK n (-1) [] := ⟨fun _ => rfl, fun hc => by omega⟩
  unfold srvRead at h
  by_cases hn : n ≤ 0
  · rw [if_pos hn] at h; cases h
  rw [if_neg hn] at h
  by_cases hd : s.r.err ≠ eOK ∧ s.r.err ≠ eWDT_TIMEOUT
  · rw [if_pos hd] at h; cases h; exact ⟨hz, hs, rfl⟩
  rw [if_neg hd] at h
  simp only [readSettingsOnce, hs, true_or, if_true] at h
  rw [if_neg (by show ¬((0 : Nat) = 27); decide), if_neg (by simp)] at h
  have hr := readInternal_ret (io := io) (n := n) (full := full) (r := { s.r with err := eOK })
  have hc := readInternal_cases io n full { s.r with err := eOK }
  generalize readInternal io n full { s.r with err := eOK } = q at *
  obtain ⟨q1, q2, q3⟩ := q
  simp only at h hc hr
  by_cases hq : q1 ≥ 0
  · rw [if_pos hq] at h
    cases h
    refine ⟨hr, rfl, ?_⟩
    rcases hc with ⟨_, h2, _, h4⟩ | ⟨_, _, _, _, h5⟩
    · simp only; rw [h2, h4]; rfl
    · exact h5
  · rw [if_neg hq] at h
    cases h
    refine ⟨hz, rfl, ?_⟩
    rcases hc with ⟨_, h2, _, h4⟩ | ⟨_, h2, _⟩
    · simp only; rw [h4]; rfl
    · omega

/-- The first bytes of a connection. -/
theorem readSettings_cases {t : Int} {junk : UInt8} {io : Nat → Option Nat} {r : EncR} {inp : Bytes} {s2 : SrvSock} {c : UInt8}
    (hin : r.net.rest = inp) (hst : r.st = { iv := [] })
    (h : readSettingsOnce t junk io { encOn := true, settings := none, r := { r with err := eOK } } = .ok (s2, c)) :
    (s2.encOn = true ∧ s2.settings = none ∧ s2.r.err = eWDT_TIMEOUT ∧ s2.r.net.rest = inp ∧ s2.r.st = { iv := [] })
    ∨ (s2.encOn = true ∧ s2.settings = none ∧ s2.r.err ≠ eOK ∧ s2.r.err ≠ eWDT_TIMEOUT ∧ s2.r.err ≠ eUNEXPECTED_CMD_ERROR)
    ∨ (s2.encOn = true ∧ s2.r.err = eUNEXPECTED_CMD_ERROR ∧ c ≠ ENCRYPTION_CMD ∧ inp = c :: s2.r.net.rest)
    ∨ (s2.encOn = true ∧ ∃ T iv o, s2.settings = some T ∧ inp.head? = some ENCRYPTION_CMD ∧
        decodeEncryptionSettings ((inp.drop 1).take 22 ++ [junk]) 0 kEncryptionCmdLen = .ok (some (t, iv, T), o) ∧
        iv.length = kTagLen ∧ 0 ≤ T ∧ (0 < T → t = ENC_AES128_GCM) ∧
        s2.r.st = { iv := iv } ∧ s2.r.net.rest = inp.drop 23 ∧ s2.r.err = eOK) := by
  unfold readSettingsOnce at h
  rw [if_neg (by simp)] at h
  have hio : (∃ r1, readInternal io 1 true { r with err := eOK } = (-1, [], r1) ∧ r1.err = eWDT_TIMEOUT ∧ r1.st = r.st ∧ r1.net.rest = inp)
      ∨ (∃ r1, readInternal io 1 true { r with err := eOK } = (0, [], r1) ∧ r1.err = eSOCKET_READ_ERROR)
      ∨ (∃ c r1, readInternal io 1 true { r with err := eOK } = (1, [c], r1) ∧ r1.st = r.st ∧ inp = c :: r1.net.rest) := by
    unfold readInternal
    cases io r.net.k with
    | none => left; exact ⟨_, rfl, rfl, rfl, hin⟩
    | some f =>
      right
      cases hrest : r.net.rest with
      | nil =>
        left
        refine ⟨{ r with err := eSOCKET_READ_ERROR, net := { r.net with k := r.net.k + 1 } }, ?_, rfl⟩
        simp [hrest]
      | cons c l =>
        right
        refine ⟨c, { r with err := eOK, net := { rest := l, k := r.net.k + 1 } }, ?_, rfl, by rw [← hin, hrest]⟩
        simp [hrest]
  rcases hio with ⟨r1, e1, herr, hst1, hrest1⟩ | ⟨r1, e1, herr⟩ | ⟨c1, r1, e1, hst1, hrest1⟩
  · rw [e1] at h
    simp only at h
    cases h
    left
    exact ⟨rfl, rfl, herr, hrest1, by rw [← hst]; exact hst1⟩
  · rw [e1] at h
    simp only at h
    cases h
    right; left
    refine ⟨rfl, rfl, ?_⟩
    simp only [herr]
    decide
  · rw [e1] at h
    simp only at h
    by_cases hcmd : c1 ≠ ENCRYPTION_CMD
    · rw [if_pos hcmd] at h
      cases h
      right; right; left
      exact ⟨rfl, rfl, hcmd, hrest1⟩
    · rw [if_neg hcmd] at h
      have hcmd' : c1 = ENCRYPTION_CMD := by
        by_contra hcc; exact hcmd hcc
      have hhead : inp.head? = some ENCRYPTION_CMD := by rw [hrest1, hcmd']; rfl
      have hk : kEncryptionCmdLen - 1 = 22 := by decide
      have htk : (readInternal io (kEncryptionCmdLen - 1) true r1).1 = 22 →
          (readInternal io (kEncryptionCmdLen - 1) true r1).2.1 = (inp.drop 1).take 22
          ∧ (readInternal io (kEncryptionCmdLen - 1) true r1).2.2.net.rest = inp.drop 23
          ∧ (readInternal io (kEncryptionCmdLen - 1) true r1).2.2.st = { iv := [] }
          ∧ (readInternal io (kEncryptionCmdLen - 1) true r1).2.2.err = eOK := by
        intro h22
        unfold readInternal at h22 ⊢
        cases hik : io r1.net.k with
        | none => rw [hik] at h22; simp at h22
        | some f =>
          rw [hik] at h22
          simp only [if_true] at h22 ⊢
          by_cases hnil : r1.net.rest.take (kEncryptionCmdLen - 1).toNat = []
          · rw [if_pos hnil] at h22; simp at h22
          · rw [if_neg hnil]
            refine ⟨?_, ?_, by rw [← hst]; exact hst1, rfl⟩
            · rw [hrest1, hk]; rfl
            · rw [hrest1, hk]; rfl
      generalize readInternal io (kEncryptionCmdLen - 1) true r1 = q at *
      obtain ⟨q1, q2, q3⟩ := q
      simp only at h htk
      by_cases h22 : q1 ≠ kEncryptionCmdLen - 1
      · rw [if_pos h22] at h
        cases h
        right; left
        exact ⟨rfl, rfl, by show (eSOCKET_READ_ERROR : ErrCode) ≠ _; decide, by show (eSOCKET_READ_ERROR : ErrCode) ≠ _; decide, by show (eSOCKET_READ_ERROR : ErrCode) ≠ _; decide⟩
      · rw [if_neg h22] at h
        obtain ⟨g1, g2, g3, g4⟩ := htk (by omega)
        cases hdec : decodeEncryptionSettings (q2 ++ [junk]) 0 kEncryptionCmdLen with
        | error f => rw [hdec] at h; cases h
        | ok q =>
          obtain ⟨x, o⟩ := q
          rw [hdec] at h
          cases x with
          | none =>
            simp only at h
            cases h
            right; left
            exact ⟨rfl, rfl, by show (ePROTOCOL_ERROR : ErrCode) ≠ _; decide, by show (ePROTOCOL_ERROR : ErrCode) ≠ _; decide, by show (ePROTOCOL_ERROR : ErrCode) ≠ _; decide⟩
          | some q =>
            obtain ⟨v, iv, T⟩ := q
            simp only at h
            by_cases hv : v ≠ t
            · rw [if_pos hv] at h
              cases h
              right; left
              exact ⟨rfl, rfl, by show (ePROTOCOL_ERROR : ErrCode) ≠ _; decide, by show (ePROTOCOL_ERROR : ErrCode) ≠ _; decide, by show (ePROTOCOL_ERROR : ErrCode) ≠ _; decide⟩
            rw [if_neg hv] at h
            by_cases hT : T < 0
            · rw [if_pos hT] at h
              cases h
              right; left
              exact ⟨rfl, rfl, by show (ePROTOCOL_ERROR : ErrCode) ≠ _; decide, by show (ePROTOCOL_ERROR : ErrCode) ≠ _; decide, by show (ePROTOCOL_ERROR : ErrCode) ≠ _; decide⟩
            rw [if_neg hT] at h
            by_cases hgc : T > 0 ∧ t ≠ ENC_AES128_GCM
            · rw [if_pos hgc] at h
              cases h
              right; left
              exact ⟨rfl, rfl, by show (ePROTOCOL_ERROR : ErrCode) ≠ _; decide, by show (ePROTOCOL_ERROR : ErrCode) ≠ _; decide, by show (ePROTOCOL_ERROR : ErrCode) ≠ _; decide⟩
            rw [if_neg hgc] at h
            by_cases hiv : iv.length ≠ kTagLen
            · rw [if_pos hiv] at h
              cases h
              right; left
              exact ⟨rfl, rfl, by show (eENCRYPTION_ERROR : ErrCode) ≠ _; decide, by show (eENCRYPTION_ERROR : ErrCode) ≠ _; decide, by show (eENCRYPTION_ERROR : ErrCode) ≠ _; decide⟩
            rw [if_neg hiv] at h
            cases h
            right; right; right
            have hv' : v = t := by by_contra hcc; exact hv hcc
            refine ⟨rfl, T, iv, o, rfl, hhead, by rw [← g1, hdec, hv'], by by_contra hcc; exact hiv hcc, by omega, ?_, ?_, g2, g4⟩
            · intro hp
              by_contra hcc
              exact hgc ⟨hp, hcc⟩
            · simp only [g3]

theorem srvRead_got {C : Cipher} {t : Int} {junk : UInt8} {io : Nat → Option Nat} {I n ret : Int} {full : Bool} {s s' : SrvSock}
    {inp P d : Bytes} (hg : Got C t junk I inp P s) (h : srvRead C t junk io I n full s = .ok (ret, d, s')) :
    RetOK n ret d ∧ Got C t junk I inp (P ++ d) s' := by
  have hz : RetOK n (-1) [] := ⟨fun _ => rfl, fun hc => by omega⟩
  cases hg with
  | clear h0 h1 h2 =>
    obtain ⟨hr, h3, h4⟩ := srvRead_clear h0 h
    exact ⟨hr, .clear h3 (by rw [h1, h4, List.append_assoc]) h2⟩
  | dead h0 h1 h2 =>
    unfold srvRead at h
    by_cases hn : n ≤ 0
    · rw [if_pos hn] at h; cases h
    have h2' : s.r.err ≠ eOK ∧ s.r.err ≠ eWDT_TIMEOUT := h2
    rw [if_neg hn, if_pos h2'] at h
    cases h
    exact ⟨hz, .dead h0 h1 h2⟩
  | @encrypted _ iv T o r h1 h2 h3 h4 h5 h6 =>
    rw [srvRead_enc] at h
    cases he : encRead C io T I n full r with
    | error f => rw [he] at h; cases h
    | ok q =>
      obtain ⟨q1, q2, q3⟩ := q
      rw [he] at h
      simp only at h
      cases h
      exact ⟨encRead_ret he, .encrypted h1 h2 h3 h4 h5 (encRead_after h6 he)⟩
  | @start r hin hst =>
    unfold srvRead at h
    by_cases hn : n ≤ 0
    · rw [if_pos hn] at h; cases h
    rw [if_neg hn] at h
    by_cases hd : r.err ≠ eOK ∧ r.err ≠ eWDT_TIMEOUT
    · rw [if_pos hd] at h; cases h; exact ⟨hz, .dead rfl rfl hd⟩
    rw [if_neg hd] at h
    cases hs : readSettingsOnce t junk io { encOn := true, settings := none, r := { r with err := eOK } } with
    | error f => rw [hs] at h; cases h
    | ok q =>
      obtain ⟨s2, c⟩ := q
      rw [hs] at h
      simp only at h
      rcases readSettings_cases hin hst hs with ⟨k1, k2, k3, k4, k5⟩ | ⟨k1, k2, k3, k4, k5⟩ | ⟨k1, k2, k3, k4⟩ | ⟨k1, T, iv, o, k2, k3, k4, k5, k6, k7, k8⟩
      · rw [if_neg (by rw [k3]; decide), if_pos (by rw [k3]; decide)] at h
        obtain ⟨e, se, r2⟩ := s2
        simp only at k1 k2 k4 k5
        subst k1 k2
        cases h
        exact ⟨hz, .start k4 k5⟩
      · rw [if_neg k5, if_pos k3] at h
        cases h
        exact ⟨hz, .dead k1 k2 ⟨k3, k4⟩⟩
      · -- in the clear
        rw [if_pos k2] at h
        have hr := readInternal_ret (io := io) (n := n - 1) (full := full) (r := { s2.r with err := eOK })
        have hc2 := readInternal_cases io (n - 1) full { s2.r with err := eOK }
        generalize readInternal io (n - 1) full { s2.r with err := eOK } = q at *
        obtain ⟨q1, q2, q3⟩ := q
        simp only at h hc2 hr
        have hhead : inp.head? ≠ some ENCRYPTION_CMD := by rw [k4]; simpa using k3
        by_cases hq : q1 ≥ 0
        · rw [if_pos hq] at h
          cases h
          have hlen : q1 = q2.length := by
            rcases Int.lt_or_le 0 q1 with hp | hp
            · exact (hr.2 hp).1
            · rw [hr.1 hp]; simp; omega
          refine ⟨⟨fun hc => by omega, fun _ => ⟨by rw [List.length_cons]; omega, ?_⟩⟩, .clear rfl ?_ hhead⟩
          · rcases Int.lt_or_le 0 q1 with hp | hp
            · have := (hr.2 hp).2; omega
            · omega
          · rw [k4]
            rcases hc2 with ⟨_, g2, _, g4⟩ | ⟨_, _, _, _, g5⟩
            · simp only; rw [g2, g4]; rfl
            · simp only; rw [g5]; rfl
        · rw [if_neg hq] at h
          cases h
          refine ⟨⟨fun hc => by omega, fun _ => ⟨rfl, by omega⟩⟩, .clear rfl ?_ hhead⟩
          rw [k4]
          rcases hc2 with ⟨_, _, _, g4⟩ | ⟨_, g2, _⟩
          · simp only; rw [g4]; rfl
          · omega
      · obtain ⟨e, se, r2⟩ := s2
        simp only at *
        subst k1 k2
        rw [if_neg (by rw [k8.2.2]; decide), if_neg (by rw [k8.2.2]; simp)] at h
        simp only [Bool.true_eq_false, if_false, Option.getD_some] at h
        cases he : encRead C io T I n full r2 with
        | error f => rw [he] at h; cases h
        | ok q =>
          obtain ⟨y1, y2, y3⟩ := q
          rw [he] at h
          simp only at h
          cases h
          have ha : After C T I { iv := iv } (inp.drop 23) [] r2 := by
            refine Or.inl ⟨0, by simp [k8.1], _, _, .nil, ?_⟩
            rw [k8.1, k8.2.1]
            exact .zero
          exact ⟨encRead_ret he, .encrypted k3 k4 k5 k6 k7 (encRead_after ha he)⟩

theorem encSock_ok (C : Cipher) (t : Int) (junk : UInt8) (io : Nat → Option Nat) (I : Int) (inp : Bytes) :
    SockOK (encSock C t junk io I) (fun s => ∃ P, Got C t junk I inp P s) where
  read := by
    intro s n ret d s' ⟨P, hg⟩ _ h
    obtain ⟨hr, hg'⟩ := srvRead_got hg h
    exact ⟨⟨_, hg'⟩, hr.1, hr.2⟩

theorem delivers_got {C : Cipher} {t : Int} {junk : UInt8} {io : Nat → Option Nat} {I : Int} {inp d : Bytes} {s s' : SrvSock}
    (hs : Got C t junk I inp [] s) (h : Delivers (encSock C t junk io I) s d s') : Got C t junk I inp d s' := by
  induction h with
  | refl => exact hs
  | read _ _ hr ih => exact (srvRead_got ih hr).2

/-- **C98**: whatever arrives on the connection (sent, changed, dropped, repeated by
anybody, with timeouts at any point), the receiver thread does nothing but what some
bytes `P` would make it do in the clear, where `P` is what the connection stands for:
`Accepts`. -/
theorem C98_nothing_else (C : Cipher) (t : Int) (junk : UInt8) (io : Nat → Option Nat) (I : Int) (inp : Bytes)
    (crc : Int → UInt8 → Int) (id buf : Bytes) (ver : Int) (footer : Bool) (fuel : Nat) (obs : List RObs) (o : ROut) (s' : SrvSock)
    (h : sReceive (encSock C t junk io I) crc id fuel (.start buf ver footer) (.fresh inp) = .ok (obs, o, s')) :
    ∃ (P : Bytes) (cut : List Int → Nat), Accepts C t junk I inp P ∧
      receive cut crc id fuel (.fresh buf P ver footer) = .ok (obs, o) := by
  have hg : Got C t junk I inp [] (.fresh inp) := .start rfl rfl
  obtain ⟨P, hd, _, hrun⟩ := sReceive_back (s₀ := SrvSock.fresh inp) (encSock_ok C t junk io I inp) crc id fuel _ _ ⟨_, hg⟩ obs o s' h
  refine ⟨P, sockCut (encSock C t junk io I) (.fresh inp), (delivers_got hg hd).accepts, ?_⟩
  exact hrun { rest := P } rfl rfl

/-! ### With tags that cannot be forged -/

/-- The ciphertext `c` was written under the vector `v` by a sender with the secret:
`Sent v S` says that a sender encrypted `S` from the point on where it took `v`. -/
def Written (C : Cipher) (Sent : Bytes → Bytes → Prop) (v c : Bytes) : Prop :=
  ∃ S, Sent v S ∧ c.length ≤ S.length ∧ c = encBytes C.enc v 0 (S.take c.length)

/-- Nobody without the secret made one of the tags in `inp`: where a right tag arrives,
the ciphertext before it was written by a sender with the secret. -/
def NoForgery (C : Cipher) (T I : Int) (Sent : Bytes → Bytes → Prop) (iv inp : Bytes) : Prop :=
  ∀ data st inp₁ n st₁ tl, Decodes C T I { iv := iv } inp data st inp₁ →
    Tags C T I st inp₁ n st₁ (C.tag st₁.iv st₁.done ++ tl) → TagAt T st₁.total → Written C Sent st₁.iv st₁.done

/-- `D` is put together from beginnings of what was sent under some vector, one that
begins with the vector of the settings unless the vector was changed, each but the last
as long as it takes for the vector to change. -/
def Authentic (T I : Int) (Sent : Bytes → Bytes → Prop) (iv D : Bytes) : Prop :=
  ∃ (pieces : List (Bytes × Bytes)) (v x : Bytes), D = (pieces.map (·.2)).flatten ++ x ∧
    (∀ q ∈ pieces, I ≠ 0 ∧ I < q.2.length + T ∧ ∃ S, Sent q.1 S ∧ q.2 <+: S) ∧ (∃ S, Sent v S ∧ x <+: S) ∧
    (pieces = [] → v = iv)

/-- What is known of the reader's cipher state. -/
def PieceInv (C : Cipher) (T I : Int) (Sent : Bytes → Bytes → Prop) (iv data : Bytes) (st : EncSt) : Prop :=
  st.total = data.length ∧ ∃ pieces : List (Bytes × Bytes),
    data = (pieces.map (·.2)).flatten ++ encBytes C.dec st.iv 0 st.done ∧
    (∀ q ∈ pieces, I ≠ 0 ∧ I < q.2.length + T ∧ ∃ S, Sent q.1 S ∧ q.2 <+: S) ∧ (pieces = [] → st.iv = iv)

theorem written_prefix {C : Cipher} (hinv : ∀ iv p b, C.dec iv p (C.enc iv p b) = b) {Sent : Bytes → Bytes → Prop} {v c : Bytes}
    (h : Written C Sent v c) : ∃ S, Sent v S ∧ encBytes C.dec v 0 c <+: S := by
  obtain ⟨S, hS, _, hc⟩ := h
  refine ⟨S, hS, ?_⟩
  rw [hc, encBytes_dec hinv]
  exact List.take_prefix _ _

theorem tags_pieces {C : Cipher} (hinv : ∀ iv p b, C.dec iv p (C.enc iv p b) = b) {T I : Int} {Sent : Bytes → Bytes → Prop}
    {iv inp data : Bytes} {st : EncSt} {inp₁ : Bytes} (hf : NoForgery C T I Sent iv inp)
    (hd : Decodes C T I { iv := iv } inp data st inp₁) (hi : PieceInv C T I Sent iv data st) {n : Nat} {st₂ : EncSt} {inp₂ : Bytes}
    (ht : Tags C T I st inp₁ n st₂ inp₂) :
    PieceInv C T I Sent iv data st₂ ∧ (0 < n → Authentic T I Sent iv data) := by
  induction ht with
  | zero => exact ⟨hi, fun h => by omega⟩
  | @same n st₁ tl h1 h2 h3 ih =>
    obtain ⟨⟨htot, pieces, e, hp, hv⟩, _⟩ := ih
    refine ⟨⟨htot, pieces, e, hp, hv⟩, fun _ => ?_⟩
    exact ⟨pieces, st₁.iv, _, e, hp, written_prefix hinv (hf data st inp₁ n st₁ _ hd h1 h2), hv⟩
  | @change n st₁ iv' tl h1 h2 h3 h4 ih =>
    obtain ⟨⟨htot, pieces, e, hp, hv⟩, _⟩ := ih
    have hw := written_prefix hinv (hf data st inp₁ n st₁ _ hd h1 h2)
    refine ⟨⟨htot, pieces ++ [(st₁.iv, encBytes C.dec st₁.iv 0 st₁.done)], ?_, ?_, fun hc => by simp at hc⟩, fun _ => ?_⟩
    · rw [e]; simp [encBytes]
    · intro q hq
      rcases List.mem_append.1 hq with h | h
      · exact hp q h
      · rw [List.mem_singleton] at h
        subst h
        exact ⟨h3.1, by rw [encBytes_length]; exact h3.2, hw⟩
    · exact ⟨pieces, st₁.iv, _, e, hp, hw, hv⟩

theorem decodes_authentic {C : Cipher} (hinv : ∀ iv p b, C.dec iv p (C.enc iv p b) = b) {T I : Int} {Sent : Bytes → Bytes → Prop}
    {iv inp data : Bytes} {st : EncSt} {inp₁ : Bytes} (hf : NoForgery C T I Sent iv inp)
    (hd : Decodes C T I { iv := iv } inp data st inp₁) :
    PieceInv C T I Sent iv data st ∧ ∀ p : Nat, TagAt T p → p < data.length → Authentic T I Sent iv (data.take p) := by
  induction hd with
  | nil => exact ⟨⟨rfl, [], by simp [encBytes], by simp, fun _ => rfl⟩, fun p _ h => by simp at h⟩
  | @byte data st₁ inp₁ n st₂ c inp₂ hd ht hp ih =>
    obtain ⟨hi, hall⟩ := ih
    obtain ⟨⟨htot, pieces, e, hpc, hv⟩, hau⟩ := tags_pieces hinv hf hd hi ht
    refine ⟨⟨by simp [htot], pieces, ?_, hpc, hv⟩, ?_⟩
    · simp only [encBytes_append, Nat.zero_add, encBytes]
      rw [← List.append_assoc, ← e]
    · intro p hpt hlt
      rw [List.length_append, List.length_singleton] at hlt
      by_cases hlt' : p < data.length
      · rw [List.take_append_of_le_length (by omega)]
        exact hall p hpt hlt'
      · have hpe : p = data.length := by omega
        subst hpe
        rw [List.take_left]
        exact hau (hp (by rw [htot]; exact hpt))

/-- **C98**, authenticity (partial: only what lies before the last tag position that was
passed, in pieces if vectors change, and only if the tag interval of the settings, which
are not protected, is not zero; see the violations below).  If nobody without the secret
made a tag, then whatever arrives on a connection that begins with encryption settings,
the receiver thread does what some bytes `P` would make it do in the clear, and up to
every tag position inside `P` these bytes were sent by somebody with the secret. -/
theorem C98_authentic_partial (C : Cipher) (hinv : ∀ iv p b, C.dec iv p (C.enc iv p b) = b) (t : Int) (junk : UInt8)
    (io : Nat → Option Nat) (I : Int) (inp iv : Bytes) (T off : Int) (Sent : Bytes → Bytes → Prop)
    (hcmd : inp.head? = some ENCRYPTION_CMD)
    (hset : decodeEncryptionSettings ((inp.drop 1).take 22 ++ [junk]) 0 kEncryptionCmdLen = .ok (some (t, iv, T), off))
    (hf : NoForgery C T I Sent iv (inp.drop 23))
    (crc : Int → UInt8 → Int) (id buf : Bytes) (ver : Int) (footer : Bool) (fuel : Nat) (obs : List RObs) (o : ROut) (s' : SrvSock)
    (h : sReceive (encSock C t junk io I) crc id fuel (.start buf ver footer) (.fresh inp) = .ok (obs, o, s')) :
    ∃ (P : Bytes) (cut : List Int → Nat), receive cut crc id fuel (.fresh buf P ver footer) = .ok (obs, o) ∧
      ∀ p : Nat, TagAt T p → p < P.length → Authentic T I Sent iv (P.take p) := by
  obtain ⟨P, cut, ha, hr⟩ := C98_nothing_else C t junk io I inp crc id buf ver footer fuel obs o s' h
  refine ⟨P, cut, hr, ?_⟩
  cases ha with
  | nothing => intro p _ hp; simp at hp
  | clear _ h2 => exact absurd hcmd h2
  | @encrypted _ iv' T' o' st' rest h1 h2 h3 h4 h5 h6 =>
    rw [hset] at h2
    cases h2
    exact (decodes_authentic hinv hf h6).2

/-- **C98**, authenticity without vector changes (partial: as above): up to every tag
position inside `P`, the bytes are the beginning of one stream that was sent. -/
theorem C98_one_stream_partial (C : Cipher) (hinv : ∀ iv p b, C.dec iv p (C.enc iv p b) = b) (t : Int) (junk : UInt8)
    (io : Nat → Option Nat) (inp iv : Bytes) (T off : Int) (Sent : Bytes → Bytes → Prop)
    (hcmd : inp.head? = some ENCRYPTION_CMD)
    (hset : decodeEncryptionSettings ((inp.drop 1).take 22 ++ [junk]) 0 kEncryptionCmdLen = .ok (some (t, iv, T), off))
    (hf : NoForgery C T 0 Sent iv (inp.drop 23))
    (crc : Int → UInt8 → Int) (id buf : Bytes) (ver : Int) (footer : Bool) (fuel : Nat) (obs : List RObs) (o : ROut) (s' : SrvSock)
    (h : sReceive (encSock C t junk io 0) crc id fuel (.start buf ver footer) (.fresh inp) = .ok (obs, o, s')) :
    ∃ (P : Bytes) (cut : List Int → Nat), receive cut crc id fuel (.fresh buf P ver footer) = .ok (obs, o) ∧
      ∀ p : Nat, TagAt T p → p < P.length → ∃ S, Sent iv S ∧ P.take p <+: S := by
  obtain ⟨P, cut, hr, ha⟩ := C98_authentic_partial C hinv t junk io 0 inp iv T off Sent hcmd hset hf crc id buf ver footer fuel obs o s' h
  refine ⟨P, cut, hr, fun p h1 h2 => ?_⟩
  obtain ⟨pieces, v, x, e, hp, hx, hv⟩ := ha p h1 h2
  cases pieces with
  | cons q l => exact absurd rfl (hp q (by simp)).1
  | nil =>
    rw [hv rfl] at hx
    simp only [List.map_nil, List.flatten_nil, List.nil_append] at e
    rw [e]
    exact hx

/-! #### A case -/

theorem tags_plain {C : Cipher} {T : Int} {st st' : EncSt} {inp inp' : Bytes} {n : Nat} (h : Tags C T 0 st inp n st' inp') :
    st' = st ∧ inp'.length ≤ inp.length ∧ (¬TagAt T st.total → inp' = inp) := by
  induction h with
  | zero => exact ⟨rfl, Nat.le_refl _, fun _ => rfl⟩
  | @same n st₁ inp₁ h1 h2 _ ih =>
    obtain ⟨i1, i2, _⟩ := ih
    subst i1
    rw [List.length_append] at i2
    exact ⟨rfl, by omega, fun hc => absurd h2 hc⟩
  | change _ _ h3 _ _ => exact absurd rfl h3.1

theorem decodes_plain {C : Cipher} {T : Int} {iv inp data : Bytes} {st : EncSt} {inp' : Bytes}
    (h : Decodes C T 0 { iv := iv } inp data st inp') :
    st.iv = iv ∧ st.total = data.length ∧ data.length + inp'.length ≤ inp.length ∧
      ((data.length : Int) ≤ T → st.done = inp.take data.length ∧ inp' = inp.drop data.length) := by
  induction h with
  | nil => exact ⟨rfl, rfl, by simp, fun _ => ⟨rfl, rfl⟩⟩
  | @byte data st₁ inp₁ n st₂ c inp₂ hd ht hp ih =>
    obtain ⟨i0, i1, i2, i3⟩ := ih
    obtain ⟨t1, t2, t3⟩ := tags_plain ht
    subst t1
    rw [List.length_cons] at t2
    refine ⟨i0, by simp [i1], by simp; omega, fun hle => ?_⟩
    rw [List.length_append, List.length_singleton] at hle ⊢
    obtain ⟨j1, j2⟩ := i3 (by omega)
    have hnt : ¬TagAt T st₂.total := by
      rw [i1]
      rintro ⟨h0, h1, h2⟩
      rw [Int.emod_eq_of_lt (by omega) (by omega)] at h2
      exact h1 h2
    have hin := t3 hnt
    rw [j2] at hin
    have hlt : data.length < inp.length := by
      have := congrArg List.length hin
      rw [List.length_cons, List.length_drop] at this
      omega
    rw [List.drop_eq_getElem_cons hlt] at hin
    obtain ⟨e1, e2⟩ := List.cons.inj hin
    refine ⟨?_, e2⟩
    show st₂.done ++ [c] = _
    rw [j1, e1, List.take_succ_eq_append_getElem hlt]

/-- On a connection with a single tag, as it was sent, no tag was forged. -/
theorem noForgery_sent (C : Cipher) (ivs : Nat → Bytes) (hC : CipherOK C ivs) (T : Int) (iv S : Bytes)
    (h2 : (S.length : Int) + 16 < 2 * T) :
    NoForgery C T 0 (fun v S' => v = iv ∧ S' = S) iv (wire C ivs T 0 ⟨{ iv := iv }, 0⟩ S).1 := by
  intro data st inp₁ n st₁ tl hd ht htag
  obtain ⟨t1, t2, _⟩ := tags_plain ht
  subst t1
  obtain ⟨d0, d1, d2, d3⟩ := decodes_plain hd
  rw [d0] at t2 ⊢
  obtain ⟨hT, hz, hm⟩ := htag
  -- how long the connection is
  have hsplit := wire_append (C := C) (ivs := ivs) (T := T) (I := 0) ⟨{ iv := iv }, 0⟩ (S.take T.toNat) (S.drop T.toNat)
  rw [List.take_append_drop] at hsplit
  have hraw := wire_raw (C := C) (ivs := ivs) (T := T) (I := 0) ⟨{ iv := iv }, 0⟩ (S.take T.toNat) (by
    intro i hi
    rw [List.length_take] at hi
    rintro ⟨h0, h1, h2⟩
    simp only [Int.zero_add] at h1 h2
    rw [Int.emod_eq_of_lt (by omega) (by omega)] at h2
    exact h1 h2)
  have htail : (wire C ivs T 0 (raw C ⟨{ iv := iv }, 0⟩ (S.take T.toNat)).2 (S.drop T.toNat)).1.length ≤ S.length - T.toNat + 16 := by
    by_cases hne : S.drop T.toNat = []
    · rw [hne]; simp [wire]
    · have hlen : T.toNat < S.length := by
        by_contra hc
        exact hne (List.drop_eq_nil_of_le (by omega))
      rw [wire_tag_raw _ _ hne]
      · simp only [List.length_append, raw, encBytes_length, List.length_drop]
        have : (preamble C ivs T 0 (raw C ⟨{ iv := iv }, 0⟩ (S.take T.toNat)).2).1.length ≤ 16 := by
          unfold preamble
          split
          · rw [if_neg (by simp), hC.tagLen]; decide
          · simp
        simp only [raw] at this
        omega
      · intro i hi hlt
        simp only [raw, Int.zero_add, List.length_take]
        rw [List.length_drop] at hlt
        rintro ⟨h0, h1, h2⟩
        have e : ((min T.toNat S.length : Nat) : Int) + (i : Int) = i + T := by omega
        rw [e, Int.add_emod_right, Int.emod_eq_of_lt (by omega) (by omega)] at h2
        omega
  rw [hraw] at hsplit
  generalize hw : (wire C ivs T 0 ⟨{ iv := iv }, 0⟩ S).1 = w at *
  have hw' : w = encBytes C.enc iv 0 (S.take T.toNat) ++ (wire C ivs T 0 (raw C ⟨{ iv := iv }, 0⟩ (S.take T.toNat)).2 (S.drop T.toNat)).1 := by
    rw [← hw, hsplit]; rfl
  have hwl : w.length ≤ S.length + 16 := by
    rw [hw', List.length_append, encBytes_length, List.length_take]
    omega
  have htl := hC.tagLen iv st₁.done
  rw [List.length_append, htl] at t2
  have hk : kTagLen = 16 := rfl
  have hdl : (data.length : Int) = T := by
    rw [d1] at hz hm
    obtain ⟨q, hq⟩ := Int.dvd_of_emod_eq_zero hm
    have hq1 : q = 1 := by
      have h1 : 0 < q := by
        rcases Int.lt_or_le 0 q with h | h
        · exact h
        · exfalso
          have := Int.mul_nonpos_of_nonneg_of_nonpos (Int.le_of_lt hT) h
          omega
      have h2 : q < 2 := by
        by_contra hc
        have : T * 2 ≤ T * q := Int.mul_le_mul_of_nonneg_left (by omega) (Int.le_of_lt hT)
        omega
      omega
    rw [hq1] at hq
    omega
  obtain ⟨e1, _⟩ := d3 (by omega)
  have hdn : data.length = T.toNat := by omega
  -- the tag lies behind the first interval, so there is one
  have hST : T.toNat ≤ S.length := by
    by_contra hc
    have hdrop : S.drop T.toNat = [] := List.drop_eq_nil_of_le (by omega)
    rw [hdrop] at hw'
    have := congrArg List.length hw'
    simp only [wire, List.append_nil, encBytes_length, List.length_take] at this
    omega
  have hdone : st₁.done = encBytes C.enc iv 0 (S.take T.toNat) := by
    rw [e1, hw', hdn, List.take_left' (by rw [encBytes_length, List.length_take]; omega)]
  refine ⟨S, ⟨rfl, rfl⟩, ?_, ?_⟩
  · rw [hdone, encBytes_length, List.length_take]; omega
  · rw [hdone, encBytes_length, List.length_take, Nat.min_eq_left hST]

/-- The stream of the small transfer and the connection that carries it. -/
def smallStream : Bytes :=
  match sendStream 30 30 xorCrc smallSettings (List.replicate 4150 0) 0 1 2 smallItems (List.replicate 8192 0) with
  | .error _ => []
  | .ok stream => stream
def smallConn (T : Int) : Bytes :=
  ENCRYPTION_CMD :: helloBytes ENC_AES128_GCM (List.replicate 16 9) T ++ (wire toyCipher toyIvs T 0 ⟨{ iv := List.replicate 16 9 }, 0⟩ smallStream).1

/-- What a receiver thread does on the given encrypted connection. -/
def runConn (io : Nat → Option Nat) (inp : Bytes) : Option (List RObs × ROut × ErrCode) :=
  match sReceive (encSock toyCipher ENC_AES128_GCM 0 io 0) xorCrc [120] 9 (.start (List.replicate 8192 255) 30 false) (.fresh inp) with
  | .ok (obs, o, s) => some (obs, o, s.r.err)
  | .error _ => none

/-- The hypotheses of `C98_one_stream_partial` are met by the small transfer with one tag,
whatever way the network cuts it, and the tag position is passed. -/
example (io : Nat → Option Nat) (obs : List RObs) (o : ROut) (s' : SrvSock)
    (h : sReceive (encSock toyCipher ENC_AES128_GCM 0 io 0) xorCrc [120] 9 (.start (List.replicate 8192 255) 30 false)
      (.fresh (smallConn 200)) = .ok (obs, o, s')) :
    ∃ (P : Bytes) (cut : List Int → Nat), receive cut xorCrc [120] 9 (.fresh (List.replicate 8192 255) P 30 false) = .ok (obs, o) ∧
      ∀ p : Nat, TagAt 200 p → p < P.length → P.take p <+: smallStream := by
  obtain ⟨P, cut, h1, h2⟩ := C98_one_stream_partial toyCipher toy_ok.inv ENC_AES128_GCM 0 io (smallConn 200) (List.replicate 16 9) 200 22
    (fun v S' => v = List.replicate 16 9 ∧ S' = smallStream) rfl (by decide +kernel)
    (noForgery_sent toyCipher toyIvs toy_ok 200 (List.replicate 16 9) smallStream (by decide +kernel))
    xorCrc [120] (List.replicate 8192 255) 30 false 9 obs o s' h
  refine ⟨P, cut, h1, fun p h3 h4 => ?_⟩
  obtain ⟨S, ⟨_, hS⟩, h5⟩ := h2 p h3 h4
  rw [hS] at h5
  exact h5

example : runConn (fun _ => some 99) (smallConn 200) = some (smallObs, .done 0 1 (some 2), eOK) := by decide +kernel

/-! ### What can be changed on the way -/

/-- A cipher that adds a key stream, as the counter mode and GCM do. -/
def Additive (C : Cipher) : Prop := ∃ key : Bytes → Nat → UInt8, ∀ iv p b, C.enc iv p b = b ^^^ key iv p

/-- The recorded bytes without their tags: `n` bytes of data from position `pos` on. -/
def stripTags (T : Int) : Nat → Nat → Bytes → Bytes
  | _, 0, _ => []
  | pos, n + 1, w =>
    match (if TagAt T pos then w.drop kTagLen else w) with
    | [] => []
    | c :: w => c :: stripTags T (pos + 1) n w

/-- What somebody without the secret makes of a recorded connection whose plaintext `S`
they know, to have it say `S'`: the tag interval in the settings becomes zero, the tags
are left out, the difference of the two texts is added. -/
def rewriteConn (T : Int) (S S' rec : Bytes) : Bytes :=
  rec.take 19 ++ [0, 0, 0, 0] ++ List.zipWith (· ^^^ ·) (List.zipWith (· ^^^ ·) S S') (stripTags T 0 S.length (rec.drop 23))

theorem stripTags_wire {C : Cipher} {ivs : Nat → Bytes} (hC : CipherOK C ivs) {T : Int} : ∀ (S : Bytes) (s : WSt) (pos : Nat), s.st.total = pos →
    stripTags T pos S.length (wire C ivs T 0 s S).1 = encBytes C.enc s.st.iv s.st.done.length S := by
  intro S
  induction S with
  | nil => intro s pos _; rfl
  | cons x xs ih =>
    intro s pos hs
    have hpre : (preamble C ivs T 0 s).2 = s := by
      unfold preamble
      split
      · rw [if_neg (by simp)]
      · rfl
    have hdrop : (if TagAt T pos then (wire C ivs T 0 s (x :: xs)).1.drop kTagLen else (wire C ivs T 0 s (x :: xs)).1)
        = encByte C x s :: (wire C ivs T 0 (afterByte C x s) xs).1 := by
      simp only [wire, hpre]
      by_cases ht : TagAt T pos
      · rw [if_pos ht]
        unfold preamble
        rw [hs, if_pos ht, if_neg (by simp)]
        simp only
        rw [← hC.tagLen s.st.iv s.st.done, List.drop_left]
      · rw [if_neg ht]
        unfold preamble
        rw [hs, if_neg ht]
        rfl
    rw [List.length_cons, stripTags, hdrop]
    simp only [encBytes]
    rw [ih (afterByte C x s) (pos + 1) (by simp [afterByte, hs])]
    simp [afterByte, encByte]

theorem zip_additive {C : Cipher} (hA : Additive C) (iv : Bytes) : ∀ (S S' : Bytes) (p : Nat), S'.length ≤ S.length →
    List.zipWith (· ^^^ ·) (List.zipWith (· ^^^ ·) S S') (encBytes C.enc iv p S) = encBytes C.enc iv p S' := by
  obtain ⟨key, hk⟩ := hA
  intro S
  induction S with
  | nil =>
    intro S' p h
    have : S' = [] := List.length_eq_zero_iff.1 (by simpa using h)
    subst this
    rfl
  | cons a S ih =>
    intro S' p h
    cases S' with
    | nil => rfl
    | cons b S' =>
      simp only [List.zipWith_cons_cons, encBytes]
      rw [ih S' (p + 1) (by simpa using h), hk, hk]
      congr 1
      rw [UInt8.xor_comm a b, UInt8.xor_assoc, ← UInt8.xor_assoc a a, UInt8.xor_self, UInt8.zero_xor]

theorem rewriteConn_eq (C : Cipher) (ivs : Nat → Bytes) (hC : CipherOK C ivs) (hA : Additive C) (t : Int)
    (ht0 : 0 ≤ t) (ht1 : t < 128) (iv : Bytes) (hiv : iv.length = 16) (T : Int) (S S' : Bytes) (hlen : S'.length ≤ S.length) :
    rewriteConn T S S' (ENCRYPTION_CMD :: helloBytes t iv T ++ (wire C ivs T 0 ⟨{ iv := iv }, 0⟩ S).1)
      = ENCRYPTION_CMD :: helloBytes t iv 0 ++ (wire C ivs 0 0 ⟨{ iv := iv }, 0⟩ S').1 := by
  have hl := helloBytes_length t ht0 ht1 iv hiv T
  have hl0 := helloBytes_length t ht0 ht1 iv hiv 0
  have h4 : (leBytes 4 T).length = 4 := leBytes_length 4 T
  have hpre : (nnBytes t ++ strBytes iv).length = 18 := by
    unfold helloBytes at hl
    rw [← List.append_assoc, List.length_append, h4] at hl
    omega
  have e1 : (ENCRYPTION_CMD :: helloBytes t iv T ++ (wire C ivs T 0 ⟨{ iv := iv }, 0⟩ S).1).take 19
      = ENCRYPTION_CMD :: (nnBytes t ++ strBytes iv) := by
    unfold helloBytes
    rw [List.cons_append, List.take_succ_cons, ← List.append_assoc, List.append_assoc (nnBytes t ++ strBytes iv),
      List.take_left' hpre]
  have e2 : (ENCRYPTION_CMD :: helloBytes t iv T ++ (wire C ivs T 0 ⟨{ iv := iv }, 0⟩ S).1).drop 23
      = (wire C ivs T 0 ⟨{ iv := iv }, 0⟩ S).1 := by
    rw [List.cons_append, List.drop_succ_cons, List.drop_left' hl]
  unfold rewriteConn
  rw [e1, e2, stripTags_wire hC S _ 0 rfl]
  simp only [List.length_nil]
  rw [zip_additive hA iv S S' 0 hlen]
  have e3 : (wire C ivs 0 0 ⟨{ iv := iv }, 0⟩ S').1 = encBytes C.enc iv 0 S' := by
    rw [wire_raw _ _ (by rintro i _ ⟨h, _⟩; omega)]
    rfl
  have e4 : leBytes 4 0 = [0, 0, 0, 0] := by decide
  rw [e3]
  unfold helloBytes
  rw [e4]
  simp [List.append_assoc]

/-- **C98** fails: somebody on the way who knows those bytes of the stream that they
change makes the receiver take any other stream that is not longer, without the secret,
whatever the tag interval of the sender and however many tags
it sent.  The settings at the beginning are not protected, so the tag interval can be
set to zero, which turns off all checks before the end of the connection, and the
ciphers add a key stream, so a known text can be replaced.  What the receiver does then
(names, data, sizes) is what the new stream makes it do; only at the end of the
connection would the final tag not match. -/
theorem C98_violated_rewrite (C : Cipher) (ivs : Nat → Bytes) (hC : CipherOK C ivs) (hA : Additive C) (t : Int)
    (ht : t = ENC_AES128_CTR ∨ t = ENC_AES128_GCM) (iv : Bytes) (hiv : iv.length = 16) (T : Int) (hT : 0 ≤ T) (junk : UInt8)
    (hbuf : Bytes) (hhb : hbuf.length = 23) (S S' : Bytes) (hS : S ≠ []) (hS' : S' ≠ []) (hlen : S'.length ≤ S.length) :
    ∃ hello w, encHello t iv T hbuf = .ok hello ∧ encWrites C ivs T 0 [S] (.fresh iv) = .ok w ∧
      ∀ (frag : Nat → Nat), ∃ cut : List Int → Nat, ∀ (crc : Int → UInt8 → Int) (id buf : Bytes) (ver : Int)
        (footer : Bool) (fuel : Nat) (obs : List RObs) (o : ROut),
        receive cut crc id fuel (.fresh buf S' ver footer) = .ok (obs, o) →
        ∃ s', sReceive (encSock C t junk (fun k => some (frag k)) 0) crc id fuel (.start buf ver footer)
          (.fresh (rewriteConn T S S' (hello ++ w.out))) = .ok (obs, o, s') := by
  have ht0 : 0 ≤ t := by rcases ht with h | h <;> rw [h] <;> decide
  have ht1 : t < 128 := by rcases ht with h | h <;> rw [h] <;> decide
  have hwire : ∀ (T : Int) (S : Bytes), ((EncW.fresh iv).put (wire C ivs T 0 (EncW.fresh iv).ref [S].flatten)).out
      = (wire C ivs T 0 ⟨{ iv := iv }, 0⟩ S).1 := by
    intro T S
    simp [EncW.put, EncW.fresh, EncW.ref]
  refine ⟨_, _, encHello_bytes t ht0 ht1 iv hiv T hbuf hhb,
    encWrites_wire hT [S] _ (by simpa using hS) (by simp [EncW.fresh]), ?_⟩
  intro frag
  obtain ⟨hello, w, e1, e2, h⟩ := C97_transparent_partial C ivs hC t ht iv hiv 0 0 (Int.le_refl _) (by decide) (fun h => by omega) junk
    hbuf hhb [S'] (by simpa using hS') (by rintro ⟨h, _⟩; omega)
  rw [encHello_bytes t ht0 ht1 iv hiv 0 hbuf hhb] at e1
  rw [encWrites_wire (Int.le_refl _) [S'] _ (by simpa using hS') (by simp [EncW.fresh])] at e2
  cases e1
  cases e2
  rw [hwire, rewriteConn_eq C ivs hC hA t ht0 ht1 iv hiv T S S' hlen]
  rw [hwire] at h
  obtain ⟨cut, hcut⟩ := h frag
  refine ⟨cut, ?_⟩
  simpa using hcut

theorem toy_additive : Additive toyCipher := ⟨fun iv p => UInt8.ofNat p + iv.headD 0, fun _ _ _ => rfl⟩

/-- The small transfer with another file name and other data. -/
def otherItems : List SItem := [.size 2, .block 0 { fileName := [98], seqId := 1, dataSize := 2, fileSize := 2 } [1, 2]]
def otherStream : Bytes :=
  match sendStream 30 30 xorCrc smallSettings (List.replicate 4150 0) 0 1 2 otherItems (List.replicate 8192 0) with
  | .error _ => []
  | .ok stream => stream

/-- Case: the recorded connection has two tags; the receiver takes the other file. -/
example : runConn (fun _ => some 99) (smallConn 100) = some (smallObs, .done 0 1 (some 2), eOK)
    ∧ runConn (fun _ => some 99) (rewriteConn 100 smallStream otherStream (smallConn 100))
      = some ([.settings smallSettings, .size 2, .block { fileName := [98], seqId := 1, dataSize := 2, fileSize := 2 } [1, 2] true,
          .verified { fileName := [98], seqId := 1, dataSize := 2, fileSize := 2 }], .done 0 1 (some 2), eOK) := by
  decide +kernel

/-! #### Replay of earlier data when vectors change -/

/-- As long as no vector is due it does not matter which comes next, or whether any does. -/
theorem wire_no_change {C : Cipher} {ivs ivs' : Nat → Bytes} {T I L : Int} (hL : L % T = 0) (hI : L ≤ I) :
    ∀ (a : Bytes) (s : WSt), (s.st.done.length : Int) = s.st.total → s.st.total + a.length ≤ L →
    wire C ivs T I s a = wire C ivs' T I s a ∧ (wire C ivs T I s a).2.nextIv = s.nextIv
      ∧ (wire C ivs T I s a).2.st.iv = s.st.iv
      ∧ ((wire C ivs T I s a).2.st.done.length : Int) = s.st.total + a.length := by
  intro a
  induction a with
  | nil => intro s h _; exact ⟨rfl, rfl, rfl, by simp [wire, h]⟩
  | cons x xs ih =>
    intro s h hle
    rw [List.length_cons] at hle
    have hno : TagAt T s.st.total → ¬(I ≠ 0 ∧ I < s.st.done.length + T) := by
      rintro ⟨hT, _, hm⟩ ⟨_, hlt⟩
      -- both are multiples of `T`
      have h1 : (L - s.st.total) % T = 0 := by rw [Int.sub_emod, hL, hm]; simp
      obtain ⟨q, hq⟩ := Int.dvd_of_emod_eq_zero h1
      have hq1 : 1 ≤ q := by
        by_contra hc
        have := Int.mul_nonpos_of_nonneg_of_nonpos (Int.le_of_lt hT) (show q ≤ 0 by omega)
        omega
      have : T * 1 ≤ T * q := Int.mul_le_mul_of_nonneg_left hq1 (Int.le_of_lt hT)
      omega
    have hpre : ∀ ivs : Nat → Bytes, preamble C ivs T I s = (if TagAt T s.st.total then C.tag s.st.iv s.st.done else [], s) := by
      intro ivs
      unfold preamble
      by_cases ht : TagAt T s.st.total
      · rw [if_pos ht, if_neg (hno ht), if_pos ht]
      · rw [if_neg ht, if_neg ht]
    obtain ⟨i1, i2, i3, i4⟩ := ih (afterByte C x s) (by simp [afterByte, h]) (by simp [afterByte]; omega)
    simp only [wire, hpre]
    rw [← i1]
    refine ⟨rfl, i2, i3, ?_⟩
    rw [i4]
    simp [afterByte]; omega

/-- The bytes on the wire depend on the position only by where the next tag is. -/
theorem wire_shift {C : Cipher} {ivs : Nat → Bytes} {T I d : Int} (hd : d % T = 0) (h0 : 0 ≤ d) : ∀ (a : Bytes) (s : WSt), 0 < s.st.total →
    (wire C ivs T I { s with st := { s.st with total := s.st.total + d } } a).1 = (wire C ivs T I s a).1 := by
  intro a
  induction a with
  | nil => intro s _; rfl
  | cons x xs ih =>
    intro s hs
    have ht : TagAt T (s.st.total + d) ↔ TagAt T s.st.total := by
      unfold TagAt
      rw [Int.add_emod, hd]
      simp
      intro _ _
      constructor <;> intro _ <;> omega
    have hpre : preamble C ivs T I { s with st := { s.st with total := s.st.total + d } }
        = ((preamble C ivs T I s).1, { (preamble C ivs T I s).2 with st := { (preamble C ivs T I s).2.st with total := s.st.total + d } }) := by
      unfold preamble
      simp only [ht]
      split
      · split <;> rfl
      · rfl
    have htot := preamble_total (C := C) (ivs := ivs) (T := T) (I := I) s
    simp only [wire, hpre]
    have hih := ih (afterByte C x (preamble C ivs T I s).2) (by simp [afterByte, htot]; omega)
    have e : afterByte C x { (preamble C ivs T I s).2 with st := { (preamble C ivs T I s).2.st with total := s.st.total + d } }
        = { afterByte C x (preamble C ivs T I s).2 with st := { (afterByte C x (preamble C ivs T I s).2).st with
            total := (afterByte C x (preamble C ivs T I s).2).st.total + d } } := by
      simp only [afterByte, encByte, htot]
      congr 2
      omega
    rw [e, hih]
    rfl

theorem wire_const {C : Cipher} {iv : Bytes} {T I : Int} : ∀ (a : Bytes) (st : EncSt) (n k : Nat),
    (wire C (fun _ => iv) T I ⟨st, n⟩ a).1 = (wire C (fun _ => iv) T I ⟨st, k⟩ a).1 := by
  intro a
  induction a with
  | nil => intro st n k; rfl
  | cons x xs ih =>
    intro st n k
    have hpre : ∃ b st' n' k', preamble C (fun _ => iv) T I ⟨st, n⟩ = (b, ⟨st', n'⟩) ∧ preamble C (fun _ => iv) T I ⟨st, k⟩ = (b, ⟨st', k'⟩) := by
      unfold preamble
      split
      · split
        · exact ⟨_, _, _, _, rfl, rfl⟩
        · exact ⟨_, _, _, _, rfl, rfl⟩
      · exact ⟨_, _, _, _, rfl, rfl⟩
    obtain ⟨b, st', n', k', e1, e2⟩ := hpre
    simp only [wire, e1, e2, afterByte, encByte]
    rw [ih _ n' k']

/-- **C98** fails when vectors change, even with right tags everywhere and the settings
as sent: at a change of the vector somebody on the way puts the first vector again and
repeats what they recorded from the beginning.  The new vector is not protected by a tag
and every tag covers only what follows its vector.  So `A ++ B` was sent, and the
receiver takes `A` and then the beginning of `A` again. -/
theorem C98_violated_replay (C : Cipher) (ivs : Nat → Bytes) (hC : CipherOK C ivs) (t : Int)
    (ht : t = ENC_AES128_GCM) (iv : Bytes) (hiv : iv.length = 16) (T I : Int) (hT : 0 < T) (hT' : T ≤ int32Max) (junk : UInt8)
    (hbuf : Bytes) (hhb : hbuf.length = 23) (A B : Bytes) (hA : A ≠ []) (hB : B ≠ []) (hmul : (A.length : Int) % T = 0)
    (hI : (A.length : Int) ≤ I) (hI' : I < A.length + T) (m : Nat) (hm : m < A.length) (hmT : (m : Int) % T ≠ 0) :
    ∃ hello w x tag iv' z y, encHello t iv T hbuf = .ok hello ∧ encWrites C ivs T I [A ++ B] (.fresh iv) = .ok w ∧
      w.out = x ++ tag ++ iv' ++ z ∧ tag.length = 16 ∧ iv'.length = 16 ∧ y <+: w.out ∧
      ∀ (frag : Nat → Nat), ∃ cut : List Int → Nat, ∀ (crc : Int → UInt8 → Int) (id buf : Bytes) (ver : Int)
        (footer : Bool) (fuel : Nat) (obs : List RObs) (o : ROut),
        receive cut crc id fuel (.fresh buf (A ++ A.take m) ver footer) = .ok (obs, o) →
        ∃ s', sReceive (encSock C t junk (fun k => some (frag k)) I) crc id fuel (.start buf ver footer)
          (.fresh (hello ++ (x ++ tag ++ iv ++ y))) = .ok (obs, o, s') := by
  have hk : kTagLen = 16 := rfl
  have ht0 : 0 ≤ t := by rw [ht]; decide
  have ht1 : t < 128 := by rw [ht]; decide
  have hAl : 0 < A.length := List.length_pos_iff.2 hA
  have hm0 : 0 < m := by
    rcases Nat.eq_zero_or_pos m with h | h
    · rw [h] at hmT; simp at hmT
    · exact h
  have hwire : ∀ (ivs : Nat → Bytes) (S : Bytes), ((EncW.fresh iv).put (wire C ivs T I (EncW.fresh iv).ref [S].flatten)).out
      = (wire C ivs T I ⟨{ iv := iv }, 0⟩ S).1 := by
    intro ivs S
    simp [EncW.put, EncW.fresh, EncW.ref]
  have hAne : A ++ B ≠ [] := by simp [hA]
  have hnew : A ++ A.take m ≠ [] := by simp [hA]
  -- the state after `A`
  obtain ⟨n1, n2, n3, n4⟩ := wire_no_change (C := C) (ivs := ivs) (ivs' := fun _ => iv) hmul hI A ⟨{ iv := iv }, 0⟩ rfl (by simp)
  have ntot := wire_total (C := C) (ivs := ivs) (T := T) (I := I) ⟨{ iv := iv }, 0⟩ A
  generalize hsA : (wire C ivs T I ⟨{ iv := iv }, 0⟩ A).2 = sA at *
  simp only [Int.zero_add] at n4 ntot
  have hpre : ∀ ivs : Nat → Bytes, preamble C ivs T I sA
      = (C.tag iv sA.st.done ++ ivs 0, ⟨{ sA.st with iv := ivs 0, done := [] }, 1⟩) := by
    intro ivs
    unfold preamble
    rw [if_pos ⟨hT, by omega, by rw [ntot]; exact hmul⟩, if_pos ⟨by omega, by omega⟩, n3, n2]
  -- what was recorded
  obtain ⟨z, hz⟩ : ∃ z, (wire C ivs T I ⟨{ iv := iv }, 0⟩ (A ++ B)).1
      = (wire C ivs T I ⟨{ iv := iv }, 0⟩ A).1 ++ C.tag iv sA.st.done ++ ivs 0 ++ z := by
    rw [wire_append, hsA]
    cases B with
    | nil => exact absurd rfl hB
    | cons b B =>
      refine ⟨encByte C b ⟨{ sA.st with iv := ivs 0, done := [] }, 1⟩
        :: (wire C ivs T I (afterByte C b ⟨{ sA.st with iv := ivs 0, done := [] }, 1⟩) B).1, ?_⟩
      simp only [wire, hpre, List.append_assoc]
  -- the new connection
  have hconn : (wire C (fun _ => iv) T I ⟨{ iv := iv }, 0⟩ (A ++ A.take m)).1
      = (wire C ivs T I ⟨{ iv := iv }, 0⟩ A).1 ++ C.tag iv sA.st.done ++ iv ++ (wire C ivs T I ⟨{ iv := iv }, 0⟩ (A.take m)).1 := by
    obtain ⟨k1, k2, _⟩ := wire_no_change (C := C) (ivs := ivs) (ivs' := fun _ => iv) hmul hI (A.take m) ⟨{ iv := iv }, 0⟩ rfl
      (by simp [List.length_take]; omega)
    rw [wire_append, ← n1, hsA, k1]
    cases hAm : A.take m with
    | nil =>
      have := congrArg List.length hAm
      rw [List.length_take, List.length_nil] at this
      omega
    | cons b l =>
      have h00 : preamble C (fun _ => iv) T I ⟨{ iv := iv }, 0⟩ = ([], ⟨{ iv := iv }, 0⟩) :=
        preamble_none (by rintro ⟨_, h, _⟩; exact h rfl)
      simp only [wire, hpre, h00]
      have hsh := wire_shift (C := C) (ivs := fun _ => iv) (T := T) (I := I) (d := A.length) hmul (by omega) l
        (afterByte C b ⟨{ iv := iv }, 1⟩) (by simp [afterByte])
      have hsh1 : (wire C (fun _ => iv) T I (afterByte C b ⟨{ iv := iv }, 1⟩) l).1
          = (wire C (fun _ => iv) T I (afterByte C b ⟨{ iv := iv }, 0⟩) l).1 := wire_const l _ 1 0
      have e : afterByte C b ⟨{ sA.st with iv := iv, done := [] }, 1⟩
          = { afterByte C b ⟨{ iv := iv }, 1⟩ with st := { (afterByte C b ⟨{ iv := iv }, 1⟩).st with
              total := (afterByte C b ⟨{ iv := iv }, 1⟩).st.total + A.length } } := by
        simp only [afterByte, encByte, ntot]
        congr 2
        omega
      rw [e, hsh, hsh1]
      simp [encByte, List.append_assoc]
  refine ⟨_, _, (wire C ivs T I ⟨{ iv := iv }, 0⟩ A).1, C.tag iv sA.st.done, ivs 0, z, (wire C ivs T I ⟨{ iv := iv }, 0⟩ (A.take m)).1,
    encHello_bytes t ht0 ht1 iv hiv T hbuf hhb,
    encWrites_wire (Int.le_of_lt hT) [A ++ B] _ (by simpa using hAne) (by simp [EncW.fresh]), ?_, by rw [hC.tagLen, hk], by rw [hC.ivLen, hk], ?_, ?_⟩
  · rw [hwire]; exact hz
  · rw [hwire]
    have := wire_append (C := C) (ivs := ivs) (T := T) (I := I) ⟨{ iv := iv }, 0⟩ (A.take m) (A.drop m ++ B)
    rw [← List.append_assoc, List.take_append_drop] at this
    rw [this]
    exact List.prefix_append _ _
  intro frag
  obtain ⟨hello, w, e1, e2, h⟩ := C97_transparent_partial C (fun _ => iv) ⟨hC.inv, hC.tagLen, fun _ => by rw [hiv, hk]⟩ t (.inr ht) iv hiv T I
    (Int.le_of_lt hT) hT' (fun _ => ht) junk
    hbuf hhb [A ++ A.take m] (by simpa using hnew) (by
      rintro ⟨_, _, h⟩
      simp only [List.flatten_cons, List.flatten_nil, List.append_nil, List.length_append, List.length_take, Int.natCast_add] at h
      rw [Int.add_emod, hmul, Nat.min_eq_left (by omega)] at h
      simp at h
      exact hmT h)
  rw [encHello_bytes t ht0 ht1 iv hiv T hbuf hhb] at e1
  rw [encWrites_wire (Int.le_of_lt hT) [A ++ A.take m] _ (by simpa using hnew) (by simp [EncW.fresh])] at e2
  cases e1
  cases e2
  rw [hwire, hconn] at h
  obtain ⟨cut, hcut⟩ := h frag
  refine ⟨cut, ?_⟩
  simpa using hcut

/-- Case: eight bytes with a tag every four and a new vector after eight, then more; the
receiver's socket delivers the eight bytes and then two of them again, without an error. -/
example : (match encWrites toyCipher toyIvs 4 8 [[1, 2, 3, 4, 5, 6, 7, 8] ++ [9]] (.fresh (List.replicate 16 9)) with
    | .ok w => (match encReads toyCipher (fun _ => some 100) 4 8 [(10, true)]
          (.fresh (List.replicate 16 9) (w.out.take 40 ++ List.replicate 16 9 ++ w.out.take 2)) with
      | .ok (rets, data, r) => some (rets, data, r.err)
      | .error _ => none)
    | .error _ => none) = some ([10], [1, 2, 3, 4, 5, 6, 7, 8, 1, 2], eOK) := by decide +kernel

/-- The hypotheses of `C98_violated_replay` are met. -/
example := C98_violated_replay toyCipher toyIvs toy_ok ENC_AES128_GCM rfl (List.replicate 16 9) (by simp) 4 8 (by decide) (by decide) 0
  (List.replicate 23 0) (by simp) [1, 2, 3, 4, 5, 6, 7, 8] [9] (by simp) (by simp) (by decide) (by decide) (by decide) 2 (by decide) (by decide)

end Wdt
