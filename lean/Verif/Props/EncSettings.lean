import Verif.Props.EncCheck
import Verif.Props.Protocol
/-
C56: the receiving socket as a whole, with the exchange of settings.

A socket with a secret reads from an encrypting peer what that peer wrote.  But it
also reads from a peer that does not encrypt, what that peer sent in the clear, and
from then on never decrypts again, on later connections either.
-/
namespace Wdt

/-- The receiver's socket for a first connection. -/
def SrvSock.fresh (inp : Bytes) : SrvSock := { encOn := true, r := { st := { iv := [] }, net := { rest := inp } } }

/-- The 22 bytes of settings. -/
def helloBytes (t : Int) (iv : Bytes) (T : Int) : Bytes := nnBytes t ++ (strBytes iv ++ leBytes 4 T)

theorem helloBytes_length (t : Int) (ht : 0 ≤ t) (ht' : t < 128) (iv : Bytes) (hiv : iv.length = 16) (T : Int) :
    (helloBytes t iv T).length = 22 := by
  have l1 : (nnBytes t).length = 1 := by
    have := nnBytes_length_pos t
    have := encodeVarU64Str_length_lt 1 t.toNat (by omega) (by omega) (by omega)
    unfold nnBytes at *; omega
  have l2 : (encodeVarU64Str iv.length).length = 1 := by rw [hiv]; decide +kernel
  unfold helloBytes strBytes
  simp only [List.length_append, l1, l2, leBytes_length]; omega

/-- What the writer puts in front of the data. -/
theorem encHello_bytes (t : Int) (ht : 0 ≤ t) (ht' : t < 128) (iv : Bytes) (hiv : iv.length = 16) (T : Int)
    (buf : Bytes) (hb : buf.length = 23) : encHello t iv T buf = .ok (ENCRYPTION_CMD :: helloBytes t iv T) := by
  have hk : kEncryptionCmdLen = 23 := rfl
  have e3 : int64Max = 9223372036854775807 := rfl
  have hnn : NN t := ⟨ht, by omega⟩
  have w := writes_encodeEncryptionSettings (max := kEncryptionCmdLen) (by omega) (by rw [hk]; decide) t iv T hnn
  have e := helloBytes_length t ht ht' iv hiv T
  have w' := (w (buf.set 0 ENCRYPTION_CMD) 1 (by omega) (by omega) (by rw [List.length_set]; omega)).1
    (by unfold helloBytes at e; rw [e]; omega)
  unfold helloBytes at e
  rw [e] at w'
  unfold encHello
  rw [w']
  simp only []
  cases buf with
  | nil => simp at hb
  | cons b bs =>
    simp only [List.length_cons] at hb
    congr 1
    simp only [List.set_cons_zero, splice, helloBytes, Int.toNat_one, List.take_succ_cons, List.take_zero]
    have h1 : ((1 : Int) + ((22 : Nat) : Int)).toNat = 23 := by decide
    rw [h1]
    simp only [List.cons_append, List.nil_append, List.take_succ_cons]
    rw [List.take_append_of_le_length (by rw [e]; omega), List.take_of_length_le (by rw [e]; omega)]

/-- The receiver reads those settings. -/
theorem readSettingsOnce_ok (t : Int) (ht : 0 ≤ t) (ht' : t < 128) (iv : Bytes) (hiv : iv.length = 16) (T : Int)
    (hT : 0 ≤ T) (hT' : T ≤ int32Max) (hg : T > 0 → t = ENC_AES128_GCM) (junk : UInt8) (frag : Nat → Nat) (inp : Bytes) :
    readSettingsOnce t junk (fun k => some (frag k)) (.fresh (ENCRYPTION_CMD :: helloBytes t iv T ++ inp))
      = .ok ({ encOn := true, settings := some T, r := { st := { iv := iv }, net := { rest := inp, k := 2 } } }, ENCRYPTION_CMD) := by
  have e2 : int32Max = 2147483647 := rfl
  have e3 : int64Max = 9223372036854775807 := rfl
  have hk : kEncryptionCmdLen = 23 := rfl
  have hkt : kTagLen = 16 := rfl
  have hnn : NN t := ⟨ht, by omega⟩
  have el := helloBytes_length t ht ht' iv hiv T
  have r1 : readInternal (fun k => some (frag k)) 1 true { st := { iv := [] }, net := { rest := ENCRYPTION_CMD :: helloBytes t iv T ++ inp } }
      = (1, [ENCRYPTION_CMD], { st := { iv := [] }, net := { rest := helloBytes t iv T ++ inp, k := 1 } }) := by
    unfold readInternal
    simp
  have r2 : readInternal (fun k => some (frag k)) (kEncryptionCmdLen - 1) true { st := { iv := [] }, net := { rest := helloBytes t iv T ++ inp, k := 1 } }
      = (kEncryptionCmdLen - 1, helloBytes t iv T, { st := { iv := [] }, net := { rest := inp, k := 2 } }) := by
    unfold readInternal
    have h22 : (kEncryptionCmdLen - 1).toNat = (helloBytes t iv T).length := by rw [el]; rfl
    have hne : ¬(helloBytes t iv T = []) := by intro hc; rw [hc] at el; simp at el
    simp only [if_true, h22, List.take_left, List.drop_left, if_neg hne]
    rw [el]; rfl
  have dec : decodeEncryptionSettings (helloBytes t iv T ++ [junk]) 0 kEncryptionCmdLen = .ok (some (t, iv, T), 22) := by
    have p : Parses (decodeInt64C.bind fun v => decodeString.bind fun iv =>
        (decodeIntFixed 4).bind fun t => Dec.pure (v, iv, t)) (helloBytes t iv T) (t, iv, T) :=
      (parses_nn hnn).bind <| (parses_decodeString iv (by omega)).bind <|
        (parses_decodeIntFixed 4 T hT (by omega)).map _
    unfold decodeEncryptionSettings withRange
    have hr : makeByteRange (helloBytes t iv T ++ [junk]) kEncryptionCmdLen 0 = .ok (helloBytes t iv T ++ [junk]) := by
      unfold makeByteRange
      rw [if_neg (by omega), if_neg (by rw [List.length_append, el]; simp; omega)]
      congr 1
      rw [Int.toNat_zero, List.drop_zero]
      exact List.take_of_length_le (by rw [List.length_append, el]; exact Nat.le_refl 23)
    rw [hr]
    simp only [p [junk], List.length_append, el]
    simp
  have hgt : ¬(T > 0 ∧ t ≠ ENC_AES128_GCM) := by
    rintro ⟨h1, h2⟩
    exact h2 (hg h1)
  unfold readSettingsOnce SrvSock.fresh
  rw [if_neg (by simp)]
  simp only [r1, ne_eq, not_true_eq_false, if_false, r2, dec, if_neg (show ¬T < 0 by omega), hiv, hkt]
  rw [if_neg hgt]

/-- Once the settings are read, a read is an encrypted read. -/
theorem srvRead_enc (C : Cipher) (t : Int) (junk : UInt8) (io : Nat → Option Nat) (I T n : Int) (full : Bool) (r : EncR) :
    srvRead C t junk io I n full { encOn := true, settings := some T, r := r }
      = (match encRead C io T I n full r with
        | .error f => .error f
        | .ok (ret, data, r') => .ok (ret, data, { encOn := true, settings := some T, r := r' })) := by
  unfold srvRead
  by_cases hn : n ≤ 0
  · rw [if_pos hn]; unfold encRead; rw [if_pos hn]
  · rw [if_neg hn]
    by_cases hd : r.err ≠ eOK ∧ r.err ≠ eWDT_TIMEOUT
    · rw [if_pos (by exact hd)]
      unfold encRead; rw [if_neg hn, if_pos hd]
    · rw [if_neg (by exact hd)]
      have he : encRead C io T I n full { r with err := eOK } = encRead C io T I n full r := by
        unfold encRead
        rw [if_neg hn, if_neg hn, if_neg hd]
        rw [if_neg (by show ¬((0 : Nat) ≠ 0 ∧ _); simp)]
      simp only [readSettingsOnce, Bool.true_eq_false, Option.isSome_some, or_true, if_true]
      rw [if_neg (by show ¬((0 : Nat) = 27); decide), if_neg (by simp)]
      simp only [if_false, Option.getD_some, he]
      cases encRead C io T I n full r <;> rfl

/-- Once the settings are read, the socket is the encrypted stream of `encReads`. -/
theorem srvReads_enc (C : Cipher) (t : Int) (junk : UInt8) (io : Nat → Option Nat) (I T : Int) :
    ∀ (l : List (Int × Bool)) (r : EncR),
      srvReads C t junk io I l { encOn := true, settings := some T, r := r }
        = (match encReads C io T I l r with
          | .error f => .error f
          | .ok (rets, data, r') => .ok (rets, data, { encOn := true, settings := some T, r := r' })) := by
  intro l
  induction l with
  | nil => intro r; rfl
  | cons p l ih =>
    intro r
    obtain ⟨n, full⟩ := p
    have h1 := srvRead_enc C t junk io I T n full r
    unfold srvReads encReads
    rw [h1]
    cases hr : encRead C io T I n full r with
    | error f => rfl
    | ok q =>
      obtain ⟨ret, data, r1⟩ := q
      simp only []
      rw [ih r1]
      cases encReads C io T I l r1 with
      | error f => rfl
      | ok q => rfl

/-- The first read takes the settings. -/
theorem srvRead_first (C : Cipher) (t : Int) (ht : 0 ≤ t) (ht' : t < 128) (iv : Bytes) (hiv : iv.length = 16) (T I : Int)
    (hT : 0 ≤ T) (hT' : T ≤ int32Max) (hg : T > 0 → t = ENC_AES128_GCM) (junk : UInt8) (frag : Nat → Nat) (inp : Bytes)
    (n : Int) (hn : 0 < n) (full : Bool) :
    srvRead C t junk (fun k => some (frag k)) I n full (.fresh (ENCRYPTION_CMD :: helloBytes t iv T ++ inp))
      = srvRead C t junk (fun k => some (frag k)) I n full
        { encOn := true, settings := some T, r := { st := { iv := iv }, net := { rest := inp, k := 2 } } } := by
  have hs := readSettingsOnce_ok t ht ht' iv hiv T hT hT' hg junk frag inp
  have hs2 : readSettingsOnce t junk (fun k => some (frag k))
      { encOn := true, settings := some T, r := { st := { iv := iv }, net := { rest := inp, k := 2 } } }
      = .ok ({ encOn := true, settings := some T, r := { st := { iv := iv }, net := { rest := inp, k := 2 } } }, 0) := by
    unfold readSettingsOnce; simp
  unfold srvRead
  rw [if_neg (by omega), if_neg (by show ¬((0 : Nat) ≠ 0 ∧ _); simp)]
  rw [if_neg (by omega), if_neg (by show ¬((0 : Nat) ≠ 0 ∧ _); simp)]
  have e1 : ({ SrvSock.fresh (ENCRYPTION_CMD :: helloBytes t iv T ++ inp) with
      r := { (SrvSock.fresh (ENCRYPTION_CMD :: helloBytes t iv T ++ inp)).r with err := eOK } } : SrvSock)
      = .fresh (ENCRYPTION_CMD :: helloBytes t iv T ++ inp) := rfl
  rw [e1, hs, hs2]
  rfl

theorem srvReads_first (C : Cipher) (t : Int) (ht : 0 ≤ t) (ht' : t < 128) (iv : Bytes) (hiv : iv.length = 16) (T I : Int)
    (hT : 0 ≤ T) (hT' : T ≤ int32Max) (hg : T > 0 → t = ENC_AES128_GCM) (junk : UInt8) (frag : Nat → Nat) (inp : Bytes)
    (l : List (Int × Bool)) (hl : l ≠ []) (hpos : ∀ p ∈ l, 0 < p.1) :
    srvReads C t junk (fun k => some (frag k)) I l (.fresh (ENCRYPTION_CMD :: helloBytes t iv T ++ inp))
      = srvReads C t junk (fun k => some (frag k)) I l
          { encOn := true, settings := some T, r := { st := { iv := iv }, net := { rest := inp, k := 2 } } } := by
  cases l with
  | nil => exact absurd rfl hl
  | cons p l =>
    obtain ⟨n, full⟩ := p
    have hn := hpos (n, full) (by simp)
    have h1 := srvRead_first C t ht ht' iv hiv T I hT hT' hg junk frag inp n hn full
    unfold srvReads
    rw [h1]

/-- C56, for a peer that encrypts: whatever the writer's and the reader's sizes, what
is read on the socket is what the writer wrote (both ends with the same secret, type
and vector change interval; the limits of `C35_stream_partial` apply). -/
theorem C56_encrypted_peer_partial (C : Cipher) (ivs : Nat → Bytes) (hC : CipherOK C ivs) (t : Int)
    (ht : t = ENC_AES128_CTR ∨ t = ENC_AES128_GCM) (iv : Bytes) (hiv : iv.length = 16) (T I : Int)
    (hT : 0 ≤ T) (hT' : T ≤ int32Max) (hg : T > 0 → t = ENC_AES128_GCM) (junk : UInt8)
    (buf : Bytes) (hb : buf.length = 23) (writes : List Bytes) (hw : ∀ b ∈ writes, b ≠ []) :
    ∃ hello w, encHello t iv T buf = .ok hello ∧ encWrites C ivs T I writes (.fresh iv) = .ok w ∧
      ∀ (frag : Nat → Nat) (reads : List (Int × Bool)), reads ≠ [] → (∀ p ∈ reads, 0 < p.1) →
        (asked reads ≤ writes.flatten.length ∨ ¬TagAt T writes.flatten.length) →
        ∃ rets m s', srvReads C t junk (fun k => some (frag k)) I reads (.fresh (hello ++ w.out))
            = .ok (rets, writes.flatten.take m, s')
          ∧ s'.encOn = true ∧ m ≤ writes.flatten.length
          ∧ (∀ ret ∈ rets, ret ≤ 0 → m = writes.flatten.length)
          ∧ ((∀ p ∈ reads, p.2 = true) → (m : Int) = min (asked reads) writes.flatten.length) := by
  have ht0 : 0 ≤ t := by rcases ht with h | h <;> rw [h] <;> decide
  have ht1 : t < 128 := by rcases ht with h | h <;> rw [h] <;> decide
  refine ⟨_, _, encHello_bytes t ht0 ht1 iv hiv T buf hb, encWrites_wire hT writes _ hw (by simp [EncW.fresh]), ?_⟩
  intro frag reads hne hpos hen
  rw [srvReads_first C t ht0 ht1 iv hiv T I hT hT' hg junk frag _ reads hne hpos, srvReads_enc]
  have hs : InSync C ivs T I { st := { iv := iv }, net := { rest := (wire C ivs T I ⟨{ iv := iv }, 0⟩ writes.flatten).1, k := 2 } }
      ⟨{ iv := iv }, 0⟩ writes.flatten := ⟨rfl, rfl, by simp⟩
  obtain ⟨rets, m, r', he, _, hm, hz, hf⟩ := encReads_sync hC frag hT reads _ _ _ hs (Or.inl rfl) hpos
    (by simpa using hen)
  refine ⟨rets, m, { encOn := true, settings := some T, r := r' }, ?_, rfl, hm, hz, hf⟩
  have e : ((EncW.fresh iv).put (wire C ivs T I (EncW.fresh iv).ref writes.flatten)).out
      = (wire C ivs T I ⟨{ iv := iv }, 0⟩ writes.flatten).1 := by
    simp [EncW.put, EncW.fresh, EncW.ref]
  rw [e, he]

/-- Case: GCM, 6 bytes, tags every 4 bytes. -/
example : ((match encHello ENC_AES128_GCM (List.replicate 16 9) 4 (List.replicate 23 0),
      encWrites toyCipher toyIvs 4 0 [[1, 2, 3], [4, 5, 6]] (.fresh (List.replicate 16 9)) with
    | .ok h, .ok w => (match srvReads toyCipher ENC_AES128_GCM 0 (fun _ => some 1) 0 [(5, false), (9, true)] (.fresh (h ++ w.out)) with
      | .ok (rets, data, _) => some (rets, data)
      | .error _ => none)
    | _, _ => none)) = some ([2, 4], [1, 2, 3, 4, 5, 6]) := by decide +kernel

/-- The receiver rejects settings it was not configured for. -/
theorem readSettingsOnce_reject (t u : Int) (hu : 0 ≤ u) (hu' : u < 128) (iv : Bytes) (hiv : iv.length = 16) (T : Int)
    (hT : 0 ≤ T) (hT' : T ≤ int32Max) (hbad : u ≠ t ∨ (T > 0 ∧ t ≠ ENC_AES128_GCM)) (junk : UInt8) (frag : Nat → Nat)
    (inp : Bytes) :
    readSettingsOnce t junk (fun k => some (frag k)) (.fresh (ENCRYPTION_CMD :: helloBytes u iv T ++ inp))
      = .ok ({ encOn := true, settings := none, r := { st := { iv := [] }, net := { rest := inp, k := 2 }, err := ePROTOCOL_ERROR } }, ENCRYPTION_CMD) := by
  have e2 : int32Max = 2147483647 := rfl
  have e3 : int64Max = 9223372036854775807 := rfl
  have hk : kEncryptionCmdLen = 23 := rfl
  have hnn : NN u := ⟨hu, by omega⟩
  have el := helloBytes_length u hu hu' iv hiv T
  have r1 : readInternal (fun k => some (frag k)) 1 true { st := { iv := [] }, net := { rest := ENCRYPTION_CMD :: helloBytes u iv T ++ inp } }
      = (1, [ENCRYPTION_CMD], { st := { iv := [] }, net := { rest := helloBytes u iv T ++ inp, k := 1 } }) := by
    unfold readInternal
    simp
  have r2 : readInternal (fun k => some (frag k)) (kEncryptionCmdLen - 1) true { st := { iv := [] }, net := { rest := helloBytes u iv T ++ inp, k := 1 } }
      = (kEncryptionCmdLen - 1, helloBytes u iv T, { st := { iv := [] }, net := { rest := inp, k := 2 } }) := by
    unfold readInternal
    have h22 : (kEncryptionCmdLen - 1).toNat = (helloBytes u iv T).length := by rw [el]; rfl
    have hne : ¬(helloBytes u iv T = []) := by intro hc; rw [hc] at el; simp at el
    simp only [if_true, h22, List.take_left, List.drop_left, if_neg hne]
    rw [el]; rfl
  have dec : decodeEncryptionSettings (helloBytes u iv T ++ [junk]) 0 kEncryptionCmdLen = .ok (some (u, iv, T), 22) := by
    have p : Parses (decodeInt64C.bind fun v => decodeString.bind fun iv =>
        (decodeIntFixed 4).bind fun t => Dec.pure (v, iv, t)) (helloBytes u iv T) (u, iv, T) :=
      (parses_nn hnn).bind <| (parses_decodeString iv (by omega)).bind <|
        (parses_decodeIntFixed 4 T hT (by omega)).map _
    unfold decodeEncryptionSettings withRange
    have hr : makeByteRange (helloBytes u iv T ++ [junk]) kEncryptionCmdLen 0 = .ok (helloBytes u iv T ++ [junk]) := by
      unfold makeByteRange
      rw [if_neg (by omega), if_neg (by rw [List.length_append, el]; simp; omega)]
      congr 1
      rw [Int.toNat_zero, List.drop_zero]
      exact List.take_of_length_le (by rw [List.length_append, el]; exact Nat.le_refl 23)
    rw [hr]
    simp only [p [junk], List.length_append, el]
    simp
  unfold readSettingsOnce SrvSock.fresh
  rw [if_neg (by simp)]
  simp only [r1, ne_eq, not_true_eq_false, if_false, r2, dec, if_neg (show ¬T < 0 by omega)]
  by_cases hut : u = t
  · have := hbad.resolve_left (fun h => h hut)
    rw [if_neg (by simp [hut]), if_pos this]
  · rw [if_pos hut]

/-- A socket whose read failed for good delivers nothing more. -/
theorem srvReads_dead (C : Cipher) (t : Int) (junk : UInt8) (io : Nat → Option Nat) (I : Int) :
    ∀ (l : List (Int × Bool)) (s : SrvSock), s.r.err ≠ eOK ∧ s.r.err ≠ eWDT_TIMEOUT → (∀ p ∈ l, 0 < p.1) →
      srvReads C t junk io I l s = .ok (l.map fun _ => -1, [], s) := by
  intro l
  induction l with
  | nil => intro s _ _; rfl
  | cons p l ih =>
    intro s hs hpos
    obtain ⟨n, full⟩ := p
    have hn := hpos (n, full) (by simp)
    have h1 : srvRead C t junk io I n full s = .ok (-1, [], s) := by
      unfold srvRead
      rw [if_neg (by simpa using hn), if_pos hs]
    unfold srvReads
    rw [h1]
    simp only [ih s hs (fun p hp => hpos p (by simp [hp])), List.map_cons, List.append_nil]

/-- C56, for a peer that announces a cipher other than the receiver's, or tags where
the receiver's cipher has none: every read fails and nothing of what the peer sent is
delivered. -/
theorem C56_other_cipher_refused (C : Cipher) (t u : Int) (hu : u = ENC_AES128_CTR ∨ u = ENC_AES128_GCM) (iv : Bytes)
    (hiv : iv.length = 16) (T I : Int) (hT : 0 ≤ T) (hT' : T ≤ int32Max)
    (hbad : u ≠ t ∨ (T > 0 ∧ t ≠ ENC_AES128_GCM)) (junk : UInt8) (buf : Bytes) (hb : buf.length = 23) (sent : Bytes)
    (frag : Nat → Nat) (reads : List (Int × Bool)) (hpos : ∀ p ∈ reads, 0 < p.1) :
    ∃ hello s', encHello u iv T buf = .ok hello ∧
      srvReads C t junk (fun k => some (frag k)) I reads (.fresh (hello ++ sent))
        = .ok (reads.map fun _ => -1, [], s') := by
  have hu0 : 0 ≤ u := by rcases hu with h | h <;> rw [h] <;> decide
  have hu1 : u < 128 := by rcases hu with h | h <;> rw [h] <;> decide
  refine ⟨ENCRYPTION_CMD :: helloBytes u iv T, ?_⟩
  cases reads with
  | nil => exact ⟨_, encHello_bytes u hu0 hu1 iv hiv T buf hb, rfl⟩
  | cons p l =>
    obtain ⟨n, full⟩ := p
    have hn : 0 < n := hpos (n, full) (by simp)
    refine ⟨{ encOn := true, settings := none, r := { st := { iv := [] }, net := { rest := sent, k := 2 }, err := ePROTOCOL_ERROR } },
      encHello_bytes u hu0 hu1 iv hiv T buf hb, ?_⟩
    · have hs := readSettingsOnce_reject t u hu0 hu1 iv hiv T hT hT' hbad junk frag sent
      have h1 : srvRead C t junk (fun k => some (frag k)) I n full (.fresh (ENCRYPTION_CMD :: helloBytes u iv T ++ sent))
          = .ok (-1, [], { encOn := true, settings := none, r := { st := { iv := [] }, net := { rest := sent, k := 2 }, err := ePROTOCOL_ERROR } }) := by
        unfold srvRead
        rw [if_neg (by omega), if_neg (by show ¬((0 : Nat) ≠ 0 ∧ _); simp)]
        have e1 : ({ SrvSock.fresh (ENCRYPTION_CMD :: helloBytes u iv T ++ sent) with
            r := { (SrvSock.fresh (ENCRYPTION_CMD :: helloBytes u iv T ++ sent)).r with err := eOK } } : SrvSock)
            = .fresh (ENCRYPTION_CMD :: helloBytes u iv T ++ sent) := rfl
        rw [e1, hs]
        rfl
      unfold srvReads
      rw [h1]
      simp only []
      rw [srvReads_dead C t junk _ I l _ ⟨by show ePROTOCOL_ERROR ≠ eOK; decide, by show ePROTOCOL_ERROR ≠ eWDT_TIMEOUT; decide⟩ (fun p hp => hpos p (by simp [hp]))]
      rfl

/-- Case: a peer with AES-CTR against a receiver with AES-GCM. -/
example : ((match encHello ENC_AES128_CTR (List.replicate 16 9) 0 (List.replicate 23 0) with
    | .ok h => (match srvReads toyCipher ENC_AES128_GCM 0 (fun _ => some 1) 0 [(5, false), (9, true)] (.fresh (h ++ [1, 2, 3])) with
      | .ok (rets, data, _) => some (rets, data)
      | .error _ => none)
    | _ => none)) = some ([-1, -1], []) := by decide +kernel

/-! ### Disagreements -/

/-- C56 fails: a receiver that was given a secret delivers, unchecked, whatever a
peer without the secret sends in the clear, provided it does not begin with the
encryption command.  This holds for every such stream. -/
theorem C56_violated_downgrade (C : Cipher) (t : Int) (junk : UInt8) (frag : Nat → Nat) (I n : Int) (hn : 2 ≤ n)
    (c d : UInt8) (rest : Bytes) (hc : c ≠ ENCRYPTION_CMD) :
    ∃ s', srvRead C t junk (fun k => some (frag k)) I n true (.fresh (c :: d :: rest))
        = .ok (((c :: d :: rest).take n.toNat).length, (c :: d :: rest).take n.toNat, s')
      ∧ s'.encOn = false := by
  obtain ⟨k, rfl⟩ : ∃ k : Nat, n = k + 2 := ⟨(n - 2).toNat, by omega⟩
  have r1 : readInternal (fun k => some (frag k)) 1 true { st := { iv := [] }, net := { rest := c :: d :: rest } }
      = (1, [c], { st := { iv := [] }, net := { rest := d :: rest, k := 1 } }) := by
    unfold readInternal; simp
  have hs : readSettingsOnce t junk (fun k => some (frag k)) (.fresh (c :: d :: rest))
      = .ok ({ encOn := true, r := { st := { iv := [] }, net := { rest := d :: rest, k := 1 }, err := eUNEXPECTED_CMD_ERROR } }, c) := by
    unfold readSettingsOnce SrvSock.fresh
    rw [if_neg (by simp)]
    simp only [r1, ne_eq, hc, not_false_eq_true, if_true]
  have e1 : ((k : Int) + 2 - 1).toNat = k + 1 := by omega
  have e2 : ((k : Int) + 2).toNat = k + 2 := by omega
  have r2 : readInternal (fun k => some (frag k)) ((k : Int) + 2 - 1) true { st := { iv := [] }, net := { rest := d :: rest, k := 1 } }
      = ((((d :: rest).take (k + 1)).length : Int), (d :: rest).take (k + 1), { st := { iv := [] }, net := { rest := (d :: rest).drop (k + 1), k := 2 } }) := by
    unfold readInternal
    simp only [if_true, e1]
    simp
  refine ⟨{ encOn := false, r := { st := { iv := [] }, net := { rest := (d :: rest).drop (k + 1), k := 2 } } }, ?_, rfl⟩
  · unfold srvRead
    rw [if_neg (by omega), if_neg (by show ¬((0 : Nat) ≠ 0 ∧ _); simp)]
    have e3 : ({ SrvSock.fresh (c :: d :: rest) with r := { (SrvSock.fresh (c :: d :: rest)).r with err := eOK } } : SrvSock)
        = .fresh (c :: d :: rest) := rfl
    rw [e3, hs]
    simp only [if_true]
    rw [show ({ st := { iv := [] }, net := { rest := d :: rest, k := 1 }, err := eOK } : EncR) = { st := { iv := [] }, net := { rest := d :: rest, k := 1 } } from rfl, r2]
    simp only []
    rw [if_pos (by omega), e2]
    congr 1
    simp only [List.take_succ_cons, List.length_cons]
    congr 1
    omega

/-- C56 fails: after one connection in the clear, encryption stays off for the
socket: what an encrypting peer with the right secret sends on the next connection
is handed out as it is, encrypted, settings included. -/
theorem C56_violated_sticky (C : Cipher) (t : Int) (junk : UInt8) (frag : Nat → Nat) (I n : Int) (hn : 0 < n)
    (s : SrvSock) (hs : s.encOn = false) (inp : Bytes) (hne : inp ≠ []) :
    ∃ s', srvRead C t junk (fun k => some (frag k)) I n true (s.reconnect inp)
        = .ok ((inp.take n.toNat).length, inp.take n.toNat, s') := by
  have hne' : inp.take n.toNat ≠ [] := by
    intro hc
    have := congrArg List.length hc
    have : 0 < inp.length := List.length_pos_iff.2 hne
    rw [List.length_take, List.length_nil] at *; omega
  refine ⟨{ encOn := false, r := { st := { iv := [] }, net := { rest := inp.drop n.toNat, k := 1 } } }, ?_⟩
  · unfold srvRead SrvSock.reconnect
    rw [if_neg (by omega), if_neg (by show ¬((0 : Nat) ≠ 0 ∧ _); simp)]
    simp only [readSettingsOnce, hs, true_or, if_true]
    rw [if_neg (by show ¬((0 : Nat) = 27); decide), if_neg (by simp)]
    simp only [readInternal, if_true, if_neg hne']
    rw [if_pos (by omega)]

/-- C56 fails: a first read of a single byte from a peer that does not encrypt
delivers it but leaves the socket with an error: nothing more can be read. -/
theorem C56_violated_one_byte :
    ∃ s', srvRead toyCipher ENC_AES128_GCM 0 (fun _ => some 100) 0 1 true (.fresh [1, 2, 3]) = .ok (1, [1], s')
      ∧ srvRead toyCipher ENC_AES128_GCM 0 (fun _ => some 100) 0 1 true s' = .ok (-1, [], s') := by
  refine ⟨_, rfl, ?_⟩
  decide +kernel


end Wdt
