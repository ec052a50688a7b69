import Verif.Lemmas.BrokenRun
import Verif.Props.EncHostile
/-
C99: a connection may break at any byte.  What the receiver thread has done then is the
beginning of what it would have done.
-/
namespace Wdt

/-! ### In the clear -/

/-- The same for a connection with its settings, in terms of items. -/
theorem receive_cut (frag : List Int → Nat) (crc : Int → UInt8 → Int)
    (hcrc : ∀ x b, int32Min ≤ crc x b ∧ crc x b ≤ int32Max)
    (ver hver rver : Int) (hver1 : 0 ≤ ver ∧ ver ≤ int32Max) (hv : hver ≥ 13 ↔ ver ≥ 13)
    (hacc : receiverOnSettings ver rver = (ver, .accept))
    (st : Settings) (hst : st.WF) (hid : st.transferId.length ≤ 200) (hch : st.sendFileChunks = false)
    (hfoot : ver ≥ 12 ∨ st.enableChecksum = false)
    (items : List SItem) (hit : ∀ i ∈ items, i.WF) (hsz : sizeCount items ≤ 200)
    (status : UInt8) (n total : Int) (hn : NN n) (ht : NN total)
    (buf hbuf rbuf : Bytes) (hb : 8192 ≤ buf.length) (hhb : (hbuf.length : Int) = kMaxHeader)
    (hrb : 8192 ≤ rbuf.length) (footer0 : Bool) (fuel : Nat) (hfu : items.length + 1 < fuel) :
    ∃ stream, sendStream ver hver crc st hbuf status n total items buf = .ok stream ∧
      stream.length = 1 + (settingsBytes ver st).length + (items.flatMap (SItem.bytes hver crc st.enableChecksum)).length + 256 ∧
      ∀ p, p < stream.length → ∃ obs,
        receive frag crc st.transferId fuel (.fresh rbuf (stream.take p) rver footer0) =
          .ok (obs, .reconnect eSOCKET_READ_ERROR) ∧
        (obs = [] ∧ p < 256 ∨
          ∃ obs', obs = .settings (st.carried ver) :: obs' ∧ ItemsCut ver st.enableChecksum items obs' ∧
            ∀ k, 1 + (settingsBytes ver st).length + ((items.take k).flatMap (SItem.bytes hver crc st.enableChecksum)).length + 256 ≤ p →
              (items.take k).flatMap (SItem.obs ver st.enableChecksum) <+: obs') := by
  have hle : int32Max ≤ int64Max := by decide
  obtain ⟨buf', e, hbl⟩ := sendSettingsMsg_eq ver ⟨hver1.1, by omega⟩ st hst hid hch buf hb
  obtain ⟨q1, q2⟩ := settingsBytes_length ver st hid
  obtain ⟨fuel, rfl⟩ : ∃ k, fuel = k + 1 := ⟨fuel - 1, by omega⟩
  obtain ⟨d, es, hd, hr⟩ := sendItems_cut crc hcrc st.transferId ver hver hv st.enableChecksum hbuf hhb status n total hn ht
    items buf' (1 + (settingsBytes ver st).length) fuel (by omega) hit (by omega) hsz (by omega)
  refine ⟨(SETTINGS_CMD :: settingsBytes ver st) ++ (items.flatMap (SItem.bytes hver crc st.enableChecksum) ++ d),
    by rw [sendStream, e]; simp only [es], by simp only [List.length_append, List.length_cons, hd]; omega, ?_⟩
  intro p hp
  by_cases h256 : p < 256
  · refine ⟨[], ?_, .inl ⟨rfl, h256⟩⟩
    apply C34_parse_partial frag crc st.transferId rbuf _ rver footer0 hrb
    rw [specRun, specCmd_short _ _ _ _ _ _ (by rw [List.length_take]; omega)]
  · have hck : (st.carried ver).enableChecksum = st.enableChecksum := by
      unfold Settings.carried
      split
      · rfl
      · rcases hfoot with h | h
        · omega
        · rw [h]
    have hpl : p - (1 + (settingsBytes ver st).length) < (items.flatMap (SItem.bytes hver crc st.enableChecksum) ++ d).length := by
      rw [List.length_append, List.length_cons] at hp
      omega
    obtain ⟨obs, k1, k2, k3⟩ := hr _ hpl
    refine ⟨.settings (st.carried ver) :: obs, ?_, .inr ⟨obs, rfl, k2, fun k hk => k3 k (by omega)⟩⟩
    apply C34_parse_partial frag crc st.transferId rbuf _ rver footer0 hrb
    have htk : ((SETTINGS_CMD :: settingsBytes ver st) ++ (items.flatMap (SItem.bytes hver crc st.enableChecksum) ++ d)).take p =
        SETTINGS_CMD :: (settingsBytes ver st ++ (items.flatMap (SItem.bytes hver crc st.enableChecksum) ++ d).take (p - (1 + (settingsBytes ver st).length))) := by
      rw [List.take_append, List.take_of_length_le (by rw [List.length_cons]; omega), List.length_cons,
        Nat.add_comm (settingsBytes ver st).length 1]
      rfl
    rw [htk, specRun, specCmd_settings crc ver rver hver1 hacc st hst hid hch footer0 _ (by rw [List.length_take]; omega)]
    simp only [hck]
    rw [if_neg (by omega), k1]
    rfl

/-- **C99** (partial: as in `C34_delivery_partial`).  A sender thread sends settings, any
blocks, SIZE commands and DONE.  The connection breaks so that only the first `p` bytes
arrive, cut into any pieces.  Then the receiver thread has done the beginning of what it
would have done, where of one more block a beginning of its data may have been written; it
waits for another connection; and it has done all that belongs to the first `k` items if so
much has arrived that these and a DONE would have been complete. -/
theorem C99_break_partial (frag : List Int → Nat) (crc : Int → UInt8 → Int)
    (hcrc : ∀ x b, int32Min ≤ crc x b ∧ crc x b ≤ int32Max)
    (ver hver rver : Int) (hver1 : 0 ≤ ver ∧ ver ≤ int32Max) (hv : hver ≥ 13 ↔ ver ≥ 13)
    (hacc : receiverOnSettings ver rver = (ver, .accept))
    (st : Settings) (hst : st.WF) (hid : st.transferId.length ≤ 200) (hch : st.sendFileChunks = false)
    (hfoot : ver ≥ 12 ∨ st.enableChecksum = false)
    (items : List SItem) (hit : ∀ i ∈ items, i.WF) (hsz : sizeCount items ≤ 200)
    (status : UInt8) (n total : Int) (hn : NN n) (ht : NN total)
    (buf hbuf rbuf : Bytes) (hb : 8192 ≤ buf.length) (hhb : (hbuf.length : Int) = kMaxHeader)
    (hrb : 8192 ≤ rbuf.length) (footer0 : Bool) (fuel : Nat) (hfu : items.length + 1 < fuel) :
    ∃ stream, sendStream ver hver crc st hbuf status n total items buf = .ok stream ∧
      ∀ p, p < stream.length → ∃ obs,
        receive frag crc st.transferId fuel (.fresh rbuf (stream.take p) rver footer0) =
          .ok (obs, .reconnect eSOCKET_READ_ERROR) ∧
        CutOf (.settings (st.carried ver) :: items.flatMap (SItem.obs ver st.enableChecksum)) obs ∧
        ∀ k s, sendStream ver hver crc st hbuf status n total (items.take k) buf = .ok s → s.length ≤ p →
          .settings (st.carried ver) :: (items.take k).flatMap (SItem.obs ver st.enableChecksum) <+: obs := by
  obtain ⟨stream, e, hl, h⟩ := receive_cut frag crc hcrc ver hver rver hver1 hv hacc st hst hid hch hfoot items hit hsz status n total
    hn ht buf hbuf rbuf hb hhb hrb footer0 fuel hfu
  refine ⟨stream, e, fun p hp => ?_⟩
  obtain ⟨obs, k1, k2⟩ := h p hp
  refine ⟨obs, k1, ?_, ?_⟩
  · rcases k2 with ⟨rfl, _⟩ | ⟨obs', rfl, hc, _⟩
    · exact cutOf_nil _
    · exact hc.cutOf.append [.settings (st.carried ver)]
  · intro k s hs hle
    have hcnt : sizeCount (items.take k) ≤ sizeCount items := by
      unfold sizeCount
      exact ((List.take_sublist k items).filter _).length_le
    obtain ⟨s', e', hl', _⟩ := receive_cut frag crc hcrc ver hver rver hver1 hv hacc st hst hid hch hfoot (items.take k)
      (fun i hi => hit i (List.mem_of_mem_take hi)) (by omega) status n total hn ht buf hbuf rbuf hb hhb hrb footer0 fuel
      (by rw [List.length_take]; omega)
    rw [hs] at e'
    cases e'
    rcases k2 with ⟨rfl, h256⟩ | ⟨obs', rfl, _, hc⟩
    · omega
    · exact (List.prefix_append_right_inj [RObs.settings (st.carried ver)]).2 (hc k (by omega))

/-! ### With encryption -/

/-- The settings of the connection are read as they were sent. -/
theorem decode_hello (t : Int) (ht : 0 ≤ t) (ht' : t < 128) (iv : Bytes) (hiv : iv.length = 16) (T : Int)
    (hT : 0 ≤ T) (hT' : T ≤ int32Max) (junk : UInt8) :
    decodeEncryptionSettings (helloBytes t iv T ++ [junk]) 0 kEncryptionCmdLen = .ok (some (t, iv, T), 22) := by
  have e2 : int32Max = 2147483647 := rfl
  have e3 : int64Max = 9223372036854775807 := rfl
  have hk : kEncryptionCmdLen = 23 := rfl
  have hkt : kTagLen = 16 := rfl
  have hnn : NN t := ⟨ht, by omega⟩
  have el := helloBytes_length t ht ht' iv hiv T
  have p : Parses (decodeInt64C.bind fun v => decodeString.bind fun iv =>
      (decodeIntFixed 4).bind fun t => Dec.pure (v, iv, t)) (helloBytes t iv T) (t, iv, T) :=
    (parses_nn hnn).bind <| (parses_decodeString iv (by omega)).bind <|
      (parses_decodeIntFixed 4 T hT (by omega)).map _
  unfold decodeEncryptionSettings withRange
  have hr : makeByteRange (helloBytes t iv T ++ [junk]) kEncryptionCmdLen 0 = .ok (helloBytes t iv T ++ [junk]) := by
    unfold makeByteRange
    rw [if_neg (by omega), if_neg (by rw [List.length_append, el]; simp; omega)]
    congr 1
    rw [Int.toNat_zero, List.drop_zero]
    exact List.take_of_length_le (by rw [List.length_append, el]; exact Nat.le_refl 23)
  rw [hr]
  simp only [p [junk], List.length_append, el]
  simp

/-- A right tag does not happen to be followed by bytes that are a right tag for the same
place.  (After a timeout right behind a tag the code reads a tag again, see
`C35_violated_timeout`.) -/
def NoEcho (C : Cipher) (ivs : Nat → Bytes) (T I : Int) (s₀ : WSt) (S : Bytes) : Prop :=
  ∀ data tl, S = data ++ tl → ∀ n st₁ r,
    Tags C T I (wire C ivs T I s₀ data).2.st (wire C ivs T I (wire C ivs T I s₀ data).2 tl).1 n st₁ r → n ≤ 1

theorem noEcho_no_tags {C : Cipher} {ivs : Nat → Bytes} {I : Int} {s₀ : WSt} {S : Bytes} : NoEcho C ivs 0 I s₀ S := by
  intro data tl _ n st₁ r h
  cases h with
  | zero => omega
  | same _ h _ => exact absurd h.1 (by omega)
  | change _ h _ _ => exact absurd h.1 (by omega)

/-- Without new vectors it is enough to look behind every tag. -/
theorem noEcho_of {C : Cipher} {ivs : Nat → Bytes} {T : Int} {s₀ : WSt} {S : Bytes}
    (h : ∀ k, k < S.length + 1 → TagAt T (wire C ivs T 0 s₀ (S.take k)).2.st.total →
      ¬ (C.tag (wire C ivs T 0 s₀ (S.take k)).2.st.iv (wire C ivs T 0 s₀ (S.take k)).2.st.done ++
        C.tag (wire C ivs T 0 s₀ (S.take k)).2.st.iv (wire C ivs T 0 s₀ (S.take k)).2.st.done <+:
          (wire C ivs T 0 (wire C ivs T 0 s₀ (S.take k)).2 (S.drop k)).1)) : NoEcho C ivs T 0 s₀ S := by
  intro data tl e n st₁ r ht
  have hk := h data.length (by rw [e, List.length_append]; omega)
  rw [e, List.take_left' rfl, List.drop_left' rfl] at hk
  generalize (wire C ivs T 0 s₀ data).2 = s at ht hk
  have key : ∀ {n st₁ r}, Tags C T 0 s.st (wire C ivs T 0 s tl).1 n st₁ r → n = 0 ∧ st₁ = s.st ∧ r = (wire C ivs T 0 s tl).1 ∨
      n = 1 ∧ TagAt T s.st.total ∧ st₁ = s.st ∧ (wire C ivs T 0 s tl).1 = C.tag s.st.iv s.st.done ++ r ∨ False := by
    intro n st₁ r ht
    induction ht with
    | zero => exact .inl ⟨rfl, rfl, rfl⟩
    | same h1 h2 h3 ih =>
      rcases ih with ⟨rfl, rfl, hr⟩ | ⟨rfl, _, rfl, hr⟩ | hf
      · exact .inr (.inl ⟨rfl, h2, rfl, hr.symm⟩)
      · exact absurd ⟨_, by rw [hr, List.append_assoc]⟩ (hk h2)
      · exact hf.elim
    | change h1 h2 h3 h4 ih => exact absurd rfl h3.1
  rcases key ht with ⟨rfl, _⟩ | ⟨rfl, _⟩ | hf
  · omega
  · omega
  · exact hf.elim

theorem Tags.more {C : Cipher} {T I : Int} {st st' : EncSt} {inp inp' : Bytes} {n : Nat} (h : Tags C T I st inp n st' inp') (x : Bytes) :
    Tags C T I st (inp ++ x) n st' (inp' ++ x) := by
  induction h with
  | zero => exact .zero
  | same h1 h2 h3 ih =>
    rw [List.append_assoc] at ih
    exact .same ih h2 h3
  | change h1 h2 h3 h4 ih =>
    rw [List.append_assoc, List.append_assoc] at ih
    exact .change ih h2 h3 h4

theorem Decodes.more {C : Cipher} {T I : Int} {st st' : EncSt} {inp inp' data : Bytes} (h : Decodes C T I st inp data st' inp')
    (x : Bytes) : Decodes C T I st (inp ++ x) data st' (inp' ++ x) := by
  induction h with
  | nil => exact .nil
  | byte h1 h2 h3 ih => exact .byte ih (h2.more x) h3

/-- Whatever is decoded from what was sent is a beginning of what was encrypted. -/
theorem decodes_sent {C : Cipher} {ivs : Nat → Bytes} (hC : CipherOK C ivs) {T I : Int} {s₀ : WSt} {S : Bytes}
    (hne : NoEcho C ivs T I s₀ S)
    {data inp' : Bytes} {st' : EncSt} (h : Decodes C T I s₀.st (wire C ivs T I s₀ S).1 data st' inp') :
    ∃ tl, S = data ++ tl ∧ st' = (wire C ivs T I s₀ data).2.st ∧ inp' = (wire C ivs T I (wire C ivs T I s₀ data).2 tl).1 := by
  have hkt : kTagLen = 16 := rfl
  induction h with
  | nil => exact ⟨S, rfl, rfl, rfl⟩
  | @byte data st₁ inp₁ n st₂ c inp₂ hd ht hp ih =>
    obtain ⟨tl, e1, e2, e3⟩ := ih
    have hn := hne data tl e1 n st₂ (c :: inp₂) (by rw [← e2, ← e3]; exact ht)
    have hw : ∀ x, (wire C ivs T I s₀ (data ++ [x])).2 =
        (wire C ivs T I (wire C ivs T I s₀ data).2 [x]).2 := fun x => by rw [wire_append]
    generalize (wire C ivs T I s₀ data).2 = s at e2 e3 hw
    subst e2
    -- the next byte of the plaintext
    have hfin : ∀ (x : UInt8) (xs : Bytes), tl = x :: xs → (preamble C ivs T I s).2.st = st₂ →
        encByte C x (preamble C ivs T I s).2 :: (wire C ivs T I (afterByte C x (preamble C ivs T I s).2) xs).1 = c :: inp₂ →
        ∃ tl, S = (data ++ [C.dec st₂.iv st₂.done.length c]) ++ tl ∧
          { st₂ with done := st₂.done ++ [c], total := st₂.total + 1 } =
            (wire C ivs T I s₀ (data ++ [C.dec st₂.iv st₂.done.length c])).2.st ∧
          inp₂ = (wire C ivs T I (wire C ivs T I s₀ (data ++ [C.dec st₂.iv st₂.done.length c])).2 tl).1 := by
      intro x xs etl hst hcons
      obtain ⟨f1, f2⟩ := List.cons.inj hcons
      have hx : C.dec st₂.iv st₂.done.length c = x := by
        rw [← f1, ← hst]
        exact hC.inv _ _ _
      rw [hx, hw]
      have hws : (wire C ivs T I s [x]).2 = afterByte C x (preamble C ivs T I s).2 := rfl
      refine ⟨xs, by rw [e1, etl]; simp, ?_, by rw [hws]; exact f2.symm⟩
      rw [hws]
      unfold afterByte
      simp only [hst, f1]
    have hstep : ∀ (x : UInt8) (xs : Bytes), tl = x :: xs → inp₁ = (preamble C ivs T I s).1 ++
        encByte C x (preamble C ivs T I s).2 :: (wire C ivs T I (afterByte C x (preamble C ivs T I s).2) xs).1 := by
      intro x xs etl
      rw [e3, etl]; rfl
    cases ht with
    | zero =>
      have hnt : ¬TagAt T s.st.total := fun hc => absurd (hp hc) (by omega)
      have hpre := preamble_none (C := C) (ivs := ivs) (I := I) hnt
      cases tl with
      | nil => rw [show (wire C ivs T I s []).1 = [] from rfl] at e3; cases e3
      | cons x xs =>
        have := hstep x xs rfl
        rw [hpre, List.nil_append] at this
        refine hfin x xs rfl (by rw [hpre]) ?_
        rw [hpre]
        exact this.symm
    | @same n _ _ ht h2 h3 =>
      obtain rfl : n = 0 := by omega
      cases ht
      have hpre : preamble C ivs T I s = (C.tag s.st.iv s.st.done, s) := by
        unfold preamble
        rw [if_pos h2, if_neg h3]
      cases tl with
      | nil =>
        have := congrArg List.length e3
        rw [show (wire C ivs T I s []).1 = [] from rfl, List.length_append, hC.tagLen] at this
        simp at this
      | cons x xs =>
        have := hstep x xs rfl
        rw [hpre] at this
        refine hfin x xs rfl (by rw [hpre]) ?_
        rw [hpre]
        exact (List.append_cancel_left this).symm
    | @change n st₃ iv _ ht h2 h3 h4 =>
      obtain rfl : n = 0 := by omega
      cases ht
      have hpre : preamble C ivs T I s = (C.tag s.st.iv s.st.done ++ ivs s.nextIv, ⟨{ s.st with iv := ivs s.nextIv, done := [] }, s.nextIv + 1⟩) := by
        unfold preamble
        rw [if_pos h2, if_pos h3]
      cases tl with
      | nil =>
        have := congrArg List.length e3
        rw [show (wire C ivs T I s []).1 = [] from rfl, List.length_append, hC.tagLen] at this
        simp at this
      | cons x xs =>
        have := hstep x xs rfl
        rw [hpre, List.append_assoc] at this
        have h5 := List.append_cancel_left this
        have h6 := List.append_inj h5 (by rw [h4, hC.ivLen])
        refine hfin x xs rfl (by rw [hpre, h6.1]) ?_
        rw [hpre]
        exact h6.2.symm

/-- Whatever a socket hands out of a broken connection is a beginning of what was sent. -/
theorem accepts_sent {C : Cipher} {ivs : Nat → Bytes} (hC : CipherOK C ivs) {t : Int} (ht : 0 ≤ t) (ht' : t < 128)
    {iv : Bytes} (hiv : iv.length = 16) {T I : Int} (hT : 0 ≤ T) (hT' : T ≤ int32Max) {junk : UInt8} {S : Bytes} {p : Nat}
    (hne : NoEcho C ivs T I ⟨{ iv := iv }, 0⟩ S) {P : Bytes}
    (h : Accepts C t junk I (((ENCRYPTION_CMD :: helloBytes t iv T) ++ (wire C ivs T I ⟨{ iv := iv }, 0⟩ S).1).take p) P) :
    P <+: S := by
  have el := helloBytes_length t ht ht' iv hiv T
  cases h with
  | nothing => exact List.nil_prefix
  | clear h1 h2 =>
    cases p with
    | zero =>
      rw [List.take_zero] at h1
      rw [(List.append_eq_nil_iff.1 h1.symm).1]
      exact List.nil_prefix
    | succ p => exact absurd rfl h2
  | encrypted h1 h2 h3 h4 h5 h6 =>
    by_cases hp : p < 23
    · rw [List.drop_eq_nil_of_le (by rw [List.length_take]; omega)] at h6
      have hnil : ∀ {st : EncSt} {T' : Int} {iv' data rest : Bytes}, Decodes C T' I { iv := iv' } [] data st rest → data = [] ∧ rest = [] ∧ st = { iv := iv' } := by
        intro st T' iv' data rest h
        induction h with
        | nil => exact ⟨rfl, rfl, rfl⟩
        | byte _ h2 _ ih =>
          obtain ⟨_, rfl, rfl⟩ := ih
          exfalso
          have hz : ∀ {n : Nat} {st' st'' : EncSt} {r : Bytes}, Tags C T' I st' [] n st'' r → r = [] := by
            intro n st' st'' r h
            induction h with
            | zero => rfl
            | same _ _ _ ih => exact (List.append_eq_nil_iff.1 ih).2
            | change _ _ _ _ ih => exact (List.append_eq_nil_iff.1 (List.append_eq_nil_iff.1 ih).2).2
          exact absurd (hz h2) (by simp)
      rw [(hnil h6).1]
      exact List.nil_prefix
    · have htk : ((ENCRYPTION_CMD :: helloBytes t iv T) ++ (wire C ivs T I ⟨{ iv := iv }, 0⟩ S).1).take p =
          (ENCRYPTION_CMD :: helloBytes t iv T) ++ (wire C ivs T I ⟨{ iv := iv }, 0⟩ S).1.take (p - 23) := by
        rw [List.take_append, List.take_of_length_le (by rw [List.length_cons]; omega), List.length_cons, el]
      rw [htk] at h2 h6
      have hs : ((ENCRYPTION_CMD :: helloBytes t iv T ++ (wire C ivs T I ⟨{ iv := iv }, 0⟩ S).1.take (p - 23)).drop 1).take 22 =
          helloBytes t iv T := by
        rw [List.cons_append, List.drop_succ_cons, List.drop_zero, List.take_left' el]
      rw [hs, decode_hello t ht ht' iv hiv T hT hT' junk] at h2
      have h2' := Except.ok.inj h2
      simp only [Prod.mk.injEq, Option.some.injEq] at h2'
      obtain ⟨⟨_, rfl, rfl⟩, _⟩ := h2'
      rw [List.drop_left' (by rw [List.length_cons, el])] at h6
      have h7 := h6.more ((wire C ivs T I ⟨{ iv := iv }, 0⟩ S).1.drop (p - 23))
      rw [List.take_append_drop] at h7
      obtain ⟨tl, e, _⟩ := decodes_sent (s₀ := ⟨{ iv := iv }, 0⟩) hC hne h7
      exact ⟨tl, e.symm⟩

/-- **C99** with encryption (partial: as in `C34_delivery_partial`; `NoEcho`, which is not
needed without tags).  The connection breaks so that only the first `p` encrypted bytes arrive,
in any pieces, with timeouts.  What the receiver thread has done is the beginning of what it
would have done, where of one more block a beginning of its data may have been written. -/
theorem C99_encrypted_break_partial (C : Cipher) (ivs : Nat → Bytes) (hC : CipherOK C ivs) (t : Int)
    (ht : t = ENC_AES128_CTR ∨ t = ENC_AES128_GCM) (iv : Bytes) (hiv : iv.length = 16) (T I : Int)
    (hT : 0 ≤ T) (hT' : T ≤ int32Max) (junk : UInt8)
    (ebuf : Bytes) (heb : ebuf.length = 23)
    (crc : Int → UInt8 → Int) (hcrc : ∀ x b, int32Min ≤ crc x b ∧ crc x b ≤ int32Max)
    (ver hver rver : Int) (hver1 : 0 ≤ ver ∧ ver ≤ int32Max) (hv : hver ≥ 13 ↔ ver ≥ 13)
    (hacc : receiverOnSettings ver rver = (ver, .accept))
    (st : Settings) (hst : st.WF) (hid : st.transferId.length ≤ 200) (hch : st.sendFileChunks = false)
    (hfoot : ver ≥ 12 ∨ st.enableChecksum = false)
    (items : List SItem) (hit : ∀ i ∈ items, i.WF) (hsz : sizeCount items ≤ 200)
    (status : UInt8) (n total : Int) (hn : NN n) (htot : NN total)
    (buf hbuf rbuf : Bytes) (hb : 8192 ≤ buf.length) (hhb : (hbuf.length : Int) = kMaxHeader)
    (hrb : 8192 ≤ rbuf.length) (footer0 : Bool) (fuel : Nat) (hfu : items.length + 1 < fuel) :
    ∃ stream, sendStream ver hver crc st hbuf status n total items buf = .ok stream ∧
      ∀ writes : List Bytes, (∀ b ∈ writes, b ≠ []) → writes.flatten = stream →
      ∃ hello w, encHello t iv T ebuf = .ok hello ∧ encWrites C ivs T I writes (.fresh iv) = .ok w ∧
        (T = 0 ∨ NoEcho C ivs T I ⟨{ iv := iv }, 0⟩ stream → ∀ (p : Nat) (io : Nat → Option Nat) (obs : List RObs) (o : ROut) (s' : SrvSock),
          sReceive (encSock C t junk io I) crc st.transferId fuel (.start rbuf rver footer0)
            (.fresh ((hello ++ w.out).take p)) = .ok (obs, o, s') →
          CutOf (.settings (st.carried ver) :: items.flatMap (SItem.obs ver st.enableChecksum)) obs ∧
            (o = .reconnect eSOCKET_READ_ERROR ∨
              o = .done status n (if ver ≥ 16 then some total else none) ∧
              obs = .settings (st.carried ver) :: items.flatMap (SItem.obs ver st.enableChecksum))) := by
  have ht0 : 0 ≤ t := by rcases ht with h | h <;> rw [h] <;> decide
  have ht1 : t < 128 := by rcases ht with h | h <;> rw [h] <;> decide
  obtain ⟨stream, e, h0⟩ := C34_delivery_partial (fun _ => 0) crc hcrc ver hver rver hver1 hv hacc st hst hid hch hfoot
    items hit hsz status n total hn htot buf hbuf rbuf hb hhb hrb footer0 fuel hfu
  refine ⟨stream, e, ?_⟩
  intro writes hw hfl
  refine ⟨_, _, encHello_bytes t ht0 ht1 iv hiv T ebuf heb, encWrites_wire hT writes _ hw (by simp [EncW.fresh]), ?_⟩
  intro hne p io obs o s' hrun
  have e1 : ((EncW.fresh iv).put (wire C ivs T I (EncW.fresh iv).ref writes.flatten)).out
      = (wire C ivs T I ⟨{ iv := iv }, 0⟩ stream).1 := by
    rw [hfl]
    simp [EncW.put, EncW.fresh, EncW.ref]
  rw [e1] at hrun
  have hne' : NoEcho C ivs T I ⟨{ iv := iv }, 0⟩ stream := by
    rcases hne with rfl | h
    · exact noEcho_no_tags
    · exact h
  obtain ⟨P, cut, ha, hP⟩ := C98_nothing_else C t junk io I _ crc st.transferId rbuf rver footer0 fuel obs o s' hrun
  have hpre := accepts_sent hC ht0 ht1 hiv hT hT' hne' ha
  by_cases hl : P.length < stream.length
  · obtain ⟨stream', e', hb'⟩ := C99_break_partial cut crc hcrc ver hver rver hver1 hv hacc st hst hid hch hfoot
      items hit hsz status n total hn htot buf hbuf rbuf hb hhb hrb footer0 fuel hfu
    rw [e] at e'
    cases e'
    obtain ⟨obs', k1, k2, _⟩ := hb' P.length hl
    rw [List.prefix_iff_eq_take.1 hpre] at hP
    rw [k1] at hP
    cases hP
    exact ⟨k2, .inl rfl⟩
  · have hPs : P = stream := hpre.eq_of_length_le (by omega)
    obtain ⟨stream', e', hb'⟩ := C34_delivery_partial cut crc hcrc ver hver rver hver1 hv hacc st hst hid hch hfoot
      items hit hsz status n total hn htot buf hbuf rbuf hb hhb hrb footer0 fuel hfu
    rw [e] at e'
    cases e'
    rw [hPs, hb'] at hP
    cases hP
    exact ⟨.inl (List.prefix_refl _), .inr ⟨rfl, rfl⟩⟩

/-! ### Connection after connection -/

/-- Both threads are set up as in `C34_delivery_partial`. -/
structure BCfg.OK (c : BCfg) : Prop where
  crc : ∀ x b, int32Min ≤ c.crc x b ∧ c.crc x b ≤ int32Max
  ver : 0 ≤ c.ver ∧ c.ver ≤ int32Max
  hver : c.hver ≥ 13 ↔ c.ver ≥ 13
  acc : receiverOnSettings c.ver c.rver = (c.ver, .accept)
  st : c.st.WF
  id : c.st.transferId.length ≤ 200
  chunks : c.st.sendFileChunks = false
  foot : c.ver ≥ 12 ∨ c.st.enableChecksum = false

/-- Buffers are large enough, numbers are in range, at most 200 times the total size. -/
structure BTry.OK (t : BTry) : Prop where
  buf : 8192 ≤ t.buf.length
  hbuf : (t.hbuf.length : Int) = kMaxHeader
  rbuf : 8192 ≤ t.rbuf.length
  n : NN t.numBlocks
  total : NN t.total
  sizes : ∀ s, .size s ∈ t.items → NN s
  few : (t.items.filter fun i => i.source.isNone).length ≤ 200

theorem try_items_wf {c : BCfg} {t : BTry} (ht : t.OK) (hs : ∀ y ∈ t.sources, Sendable c y) :
    (∀ i ∈ t.items.map (BItem.sent c.src), i.WF) ∧ sizeCount (t.items.map (BItem.sent c.src)) ≤ 200 := by
  constructor
  · intro i hi
    obtain ⟨b, hb, rfl⟩ := List.mem_map.1 hi
    cases b with
    | size s => exact ht.sizes s hb
    | file st x =>
      have hx := hs x (List.mem_filterMap.2 ⟨_, hb, rfl⟩)
      exact ⟨hx.wf, hx.name, hx.data_length, hx.del⟩
  · have := ht.few
    unfold sizeCount
    rw [List.filter_map, List.length_map]
    refine Nat.le_trans (Nat.le_of_eq ?_) this
    congr 1
    apply List.filter_congr
    intro i _
    cases i <;> rfl

/-- All bytes written so far, and all that is still in the queue. -/
def BSys.bytes (S : BSys) : Int := (S.written.map fun e => (e.2.length : Int)).sum + (S.queue.map Source.size).sum

theorem break_ok {c : BCfg} (hc : c.OK) {Q : List Source} {S : BSys} (hi : BrkInv c Q S) {t : BTry} (ht : t.OK) :
    ∃ r, bBreak c S t = .ok r ∧
      match r with
      | .next S' => BrkInv c Q S' ∧ (c.st.enableChecksum = false → S'.bytes = S.bytes)
      | .refused S' => (∀ e ∈ S'.written, GoodWrite c Q e) ∧ c.st.enableChecksum = false ∧ ∃ x ∈ Q, x.seqId = 0
      | .blocked => True := by
  unfold bBreak
  by_cases hp : (t.sources ++ t.rest).Perm S.queue
  · rw [if_neg (by simp [hp])]
    have hsd : ∀ y ∈ t.sources, Sendable c y := fun y hy => hi.send y (hp.subset (List.mem_append_left _ hy))
    obtain ⟨w1, w2⟩ := try_items_wf ht hsd
    obtain ⟨stream, e, _, hb⟩ := receive_cut t.frag c.crc hc.crc c.ver c.hver c.rver hc.ver hc.hver hc.acc c.st hc.st hc.id hc.chunks
      hc.foot (t.items.map (BItem.sent c.src)) w1 w2 t.status t.numBlocks t.total ht.n ht.total t.buf t.hbuf t.rbuf ht.buf ht.hbuf
      ht.rbuf t.footer0 (t.items.length + 2) (by rw [List.length_map]; omega)
    have e' : t.stream c = .ok stream := e
    rw [e']
    simp only
    by_cases hl : stream.length ≤ t.arrive
    · rw [if_pos hl]
      exact ⟨_, rfl, trivial⟩
    · rw [if_neg hl]
      obtain ⟨obs, k1, k2⟩ := hb t.arrive (by omega)
      have k1' : t.receive c (stream.take t.arrive) = .ok (obs, .reconnect eSOCKET_READ_ERROR) := k1
      rw [k1']
      simp only
      have heff : ∃ done pend, CutEffect c c.st.enableChecksum S.cp (obs.foldl (RcvCp.step c.st.enableChecksum) S.cp) t.sources
          (obs.filterMap RObs.write) done pend := by
        rcases k2 with ⟨rfl, _⟩ | ⟨obs', rfl, hcut, _⟩
        · exact ⟨[], t.sources, rfl, rfl, .inl ⟨rfl, rfl⟩⟩
        · obtain ⟨d, p, h1, h2, h3⟩ := cut_effect c c.st.enableChecksum t.items obs' S.cp hcut
          exact ⟨d, p, h1, h2, h3⟩
      obtain ⟨done, pend, heff⟩ := heff
      obtain ⟨⟨code, h', l⟩, hset⟩ := checkpoint_ok hi heff
      rw [hset]
      have hgood : code ≠ .invalid → BrkInv c Q ⟨h', obs.foldl (RcvCp.step c.st.enableChecksum) S.cp,
          S.written ++ obs.filterMap RObs.write, t.rest ++ l.map Prod.snd⟩ ∧ (c.st.enableChecksum = false →
          BSys.bytes ⟨h', obs.foldl (RcvCp.step c.st.enableChecksum) S.cp,
            S.written ++ obs.filterMap RObs.write, t.rest ++ l.map Prod.snd⟩ = S.bytes) := by
        refine fun hcode => ⟨break_step hi hp heff hset hcode, fun hf => ?_⟩
        have := break_sum hi hp heff hset hcode hf
        unfold BSys.bytes
        simp only [List.map_append, List.sum_append] at this ⊢
        omega
      cases code with
      | ok => exact ⟨_, rfl, hgood (by simp)⟩
      | noProgress => exact ⟨_, rfl, hgood (by simp)⟩
      | invalid =>
        obtain ⟨r1, x, hx, r2, _⟩ := refused_step hi hp heff hset
        obtain ⟨z, hz, _, _, hw⟩ := hi.origin x hx
        exact ⟨_, rfl, break_writes hi hp heff, r1, z, hz, hw.seqId.symm.trans r2⟩
  · rw [if_pos hp]
    exact ⟨_, rfl, trivial⟩

theorem bRun_ok {c : BCfg} (hc : c.OK) {Q : List Source} : ∀ (ts : List BTry) (S : BSys), BrkInv c Q S → (∀ t ∈ ts, t.OK) →
    ∃ r, bRun c S ts = .ok r ∧
      match r with
      | .next S' => BrkInv c Q S' ∧ (c.st.enableChecksum = false → S'.bytes = S.bytes)
      | .refused S' => (∀ e ∈ S'.written, GoodWrite c Q e) ∧ c.st.enableChecksum = false ∧ ∃ x ∈ Q, x.seqId = 0
      | .blocked => True := by
  intro ts
  induction ts with
  | nil => intro S hi _; exact ⟨_, rfl, hi, fun _ => rfl⟩
  | cons t ts ih =>
    intro S hi ht
    obtain ⟨r, h1, h2⟩ := break_ok hc hi (ht t List.mem_cons_self)
    unfold bRun
    rw [h1]
    cases r with
    | next S' =>
      obtain ⟨r', k1, k2⟩ := ih S' h2.1 fun u hu => ht u (List.mem_cons_of_mem _ hu)
      refine ⟨r', k1, ?_⟩
      cases r' with
      | next S'' => exact ⟨k2.1, fun hf => (k2.2 hf).trans (h2.2 hf)⟩
      | refused S'' => exact k2
      | blocked => trivial
    | refused S' =>
      exact ⟨_, rfl, h2⟩
    | blocked => exact ⟨_, rfl, trivial⟩

/-- The byte at position `p` of the file with sequence id `q`, after these writes: the last one that
covers the position decides. -/
def contentAt (w : List (BlockDetails × Bytes)) (q p : Int) : Option UInt8 :=
  match (w.filter fun e => decide (e.1.seqId = q ∧ e.1.offset ≤ p ∧ p < e.1.offset + e.2.length)).getLast? with
  | none => none
  | some e => e.2[(p - e.1.offset).toNat]?

theorem contentAt_good {c : BCfg} {Q : List Source} (hq : ∀ x ∈ Q, 0 ≤ x.offset) {w : List (BlockDetails × Bytes)} (hg : ∀ e ∈ w, GoodWrite c Q e) {q p : Int}
    (hcov : WrittenAt w q p) : contentAt w q p = (c.src q)[p.toNat]? := by
  unfold contentAt
  cases hl : (w.filter fun e => decide (e.1.seqId = q ∧ e.1.offset ≤ p ∧ p < e.1.offset + e.2.length)).getLast? with
  | none =>
    rw [List.getLast?_eq_none_iff, List.filter_eq_nil_iff] at hl
    obtain ⟨e, he, h⟩ := hcov
    exact absurd (decide_eq_true h) (hl e he)
  | some e =>
    have hm := List.mem_of_getLast? hl
    obtain ⟨hm1, hm2⟩ := List.mem_filter.1 hm
    obtain ⟨h1, h2, h3⟩ := of_decide_eq_true hm2
    obtain ⟨x, hx, g1, g2, g3, g4, g5, g6, g7⟩ := hg e hm1
    have h0 := hq x hx
    simp only
    rw [g7, List.getElem?_take, if_pos (by omega), List.getElem?_drop, ← g2, h1]
    congr 1
    omega

/-- A last connection on which all that is in the queue arrives. -/
theorem good_end {c : BCfg} {Q : List Source} (hs : ∀ x ∈ Q, Sendable c x) {S : BSys} (hi : BrkInv c Q S) {srcs : List Source}
    (hp : srcs.Perm S.queue) :
    (∀ e ∈ S.written ++ srcs.map (wholeWrite c), GoodWrite c Q e) ∧
    ∀ x ∈ Q, (∃ e ∈ S.written ++ srcs.map (wholeWrite c), e.1.fileName = x.name ∧ e.1.seqId = x.seqId ∧
        e.1.offset + e.2.length = x.offset + x.size) ∧
      ∀ p, x.offset ≤ p → p < x.offset + x.size →
        ∃ b, (c.src x.seqId)[p.toNat]? = some b ∧ contentAt (S.written ++ srcs.map (wholeWrite c)) x.seqId p = some b := by
  have hgood : ∀ e ∈ S.written ++ srcs.map (wholeWrite c), GoodWrite c Q e := by
    intro d hd
    rcases List.mem_append.1 hd with hd | hd
    · exact hi.good d hd
    · obtain ⟨y, hy, rfl⟩ := List.mem_map.1 hd
      exact good_full (hi.origin y (hp.subset hy)) (hi.send y (hp.subset hy))
  refine ⟨hgood, fun x hx => ?_⟩
  have hwr : ∀ y ∈ S.queue, wholeWrite c y ∈ S.written ++ srcs.map (wholeWrite c) := fun y hy =>
    List.mem_append_right _ (List.mem_map_of_mem (hp.symm.subset hy))
  constructor
  · rcases hi.ended x hx with ⟨d, hd, h⟩ | ⟨y, hy, hn, hq, k⟩
    · exact ⟨d, List.mem_append_left _ hd, h⟩
    · refine ⟨wholeWrite c y, hwr y hy, hn, hq, ?_⟩
      show y.offset + ((y.data c.src).length : Int) = _
      rw [(hi.send y hy).data_length]; exact k
  · intro p hp1 hp2
    have h0 : 0 ≤ x.offset := (hs x hx).wf.2.2.1.1
    have hl := (hs x hx).len
    obtain ⟨b, hb⟩ : ∃ b, (c.src x.seqId)[p.toNat]? = some b := ⟨_, List.getElem?_eq_getElem (by omega)⟩
    refine ⟨b, hb, ?_⟩
    rw [contentAt_good (c := c) (Q := Q) (fun x hx => (hs x hx).wf.2.2.1.1) hgood, hb]
    rcases hi.cover x hx p hp1 hp2 with h | ⟨y, hy, hq, k1, k2⟩
    · exact h.mono
    · refine ⟨wholeWrite c y, hwr y hy, hq, k1, ?_⟩
      show p < y.offset + ((y.data c.src).length : Int)
      rw [(hi.send y hy).data_length]; exact k2

/-- **C99** over several connections (partial: as in `C34_delivery_partial`, without tags).  A sender
thread has sources of different files or different parts of files to send.  Connection after
connection breaks, each after any number of bytes, each with any of the sources that are still to
be sent, in any order.  Then neither side crashes, and all that was ever written to files is
beginnings of what remained of the sources, with their contents and at their places.  The
sender refuses the receiver's checkpoint only if there are no checksums and one file has the
sequence id 0 (see `C99_violated_refused`).  Otherwise one good connection completes the transfer: all
that is to be sent is written, every position of every source holds the byte of
the source, both sides agree on the number of blocks.  And without checksums every byte has been
written exactly once. -/
theorem C99_resume_partial (c : BCfg) (hc : c.OK) (Q : List Source) (hs : ∀ x ∈ Q, Sendable c x) (ha : Q.Pairwise ApartSrc)
    (ts : List BTry) (hts : ∀ t ∈ ts, t.OK) :
    ∃ r, bRun c { queue := Q } ts = .ok r ∧
      (∀ S, r = .next S ∨ r = .refused S → ∀ e ∈ S.written, GoodWrite c Q e) ∧
      (∀ S, r = .refused S → c.st.enableChecksum = false ∧ ∃ x ∈ Q, x.seqId = 0) ∧
      ∀ S, r = .next S → ∀ t : BTry, t.OK → t.sources.Perm S.queue →
        ∃ S', bGood c S t = .ok (.next S') ∧ (∀ e ∈ S'.written, GoodWrite c Q e) ∧ S'.queue = [] ∧
          S'.hist.history.length = S'.cp.numBlocks ∧ S'.hist.numAcked = S'.cp.numBlocks ∧
          (∀ x ∈ Q, (∃ e ∈ S'.written, e.1.fileName = x.name ∧ e.1.seqId = x.seqId ∧
              e.1.offset + e.2.length = x.offset + x.size) ∧
            ∀ p, x.offset ≤ p → p < x.offset + x.size →
              ∃ b, (c.src x.seqId)[p.toNat]? = some b ∧ contentAt S'.written x.seqId p = some b) ∧
          (c.st.enableChecksum = false → (S'.written.map fun e => (e.2.length : Int)).sum = (Q.map Source.size).sum) := by
  obtain ⟨r, h1, h2⟩ := bRun_ok hc ts { queue := Q } (BrkInv.init hs ha) hts
  refine ⟨r, h1, ?_, ?_, ?_⟩
  · intro S hS
    rcases hS with rfl | rfl
    · exact h2.1.good
    · exact h2.1
  · rintro S rfl
    exact h2.2
  · rintro S rfl t ht hp
    obtain ⟨hi, hsum⟩ := h2
    have hsd : ∀ y ∈ t.sources, Sendable c y := fun y hy => hi.send y (hp.subset hy)
    obtain ⟨w1, w2⟩ := try_items_wf ht hsd
    obtain ⟨stream, e, hb⟩ := C34_delivery_partial t.frag c.crc hc.crc c.ver c.hver c.rver hc.ver hc.hver hc.acc c.st hc.st hc.id
      hc.chunks hc.foot (t.items.map (BItem.sent c.src)) w1 w2 t.status t.numBlocks t.total ht.n ht.total t.buf t.hbuf t.rbuf ht.buf
      ht.hbuf ht.rbuf t.footer0 (t.items.length + 2) (by rw [List.length_map]; omega)
    have e' : t.stream c = .ok stream := e
    have hb' : t.receive c stream = .ok (.settings (c.st.carried c.ver) ::
        (t.items.map (BItem.sent c.src)).flatMap (SItem.obs c.ver c.st.enableChecksum), _) := hb
    obtain ⟨f1, f2⟩ := full_effect c c.st.enableChecksum t.items S.cp
    obtain ⟨a1, a2, a3⟩ := addSources_hist t.sources S.hist hi.noGlobal
    unfold bGood
    rw [if_neg (by simp [hp]), e']
    simp only
    rw [hb']
    have f2'' : ((RObs.settings (c.st.carried c.ver) :: (t.items.map (BItem.sent c.src)).flatMap
        (SItem.obs c.ver c.st.enableChecksum)).filterMap RObs.write) = t.sources.map (wholeWrite c) := f2
    obtain ⟨g1, g2⟩ := good_end hs hi hp
    refine ⟨_, rfl, ?_, rfl, ?_, ?_, ?_, ?_⟩
    · dsimp only
      rw [f2'']
      exact g1
    · show ((t.sources.foldl (fun h s => (addSource h s).1) S.hist).history.length) = _
      rw [a1, List.length_append, hi.hlen]
      exact f1.symm
    · show ((t.sources.foldl (fun h s => (addSource h s).1) S.hist).history.length : Int) = _
      have f1' : ((RObs.settings (c.st.carried c.ver) :: (t.items.map (BItem.sent c.src)).flatMap
          (SItem.obs c.ver c.st.enableChecksum)).foldl (RcvCp.step c.st.enableChecksum) S.cp).numBlocks =
          S.cp.numBlocks + t.sources.length := f1
      rw [a1, List.length_append, hi.hlen, ← f1']
    · dsimp only
      rw [f2'']
      exact g2
    · intro hf
      have hb := hsum hf
      unfold BSys.bytes at hb
      simp only [List.map_nil, List.sum_nil, Int.zero_add] at hb
      show ((S.written ++ ((t.items.map (BItem.sent c.src)).flatMap (SItem.obs c.ver c.st.enableChecksum)).filterMap RObs.write).map
        fun e => (e.2.length : Int)).sum = _
      have hsz : ((t.sources.map (wholeWrite c)).map fun e => (e.2.length : Int)) = t.sources.map Source.size := by
        rw [List.map_map]
        apply List.map_congr_left
        intro y hy
        exact (hsd y hy).data_length
      have f2' : ((t.items.map (BItem.sent c.src)).flatMap (SItem.obs c.ver c.st.enableChecksum)).filterMap RObs.write =
          t.sources.map (wholeWrite c) := f2
      rw [f2', List.map_append, List.sum_append, hsz, perm_sum_int (hp.map Source.size), hb]

/-! ### Cases -/

/-- Two files, without and with checksums. -/
def exBrkCfg (ck : Bool) : BCfg :=
  ⟨30, 30, 30, xorCrc, { readTimeoutMillis := 5000, writeTimeoutMillis := 5000, transferId := [120], enableChecksum := ck },
    fun q => if q = 2 then [1, 2, 3] else (List.range 300).map UInt8.ofNat⟩

def exBrkX (q : Int) : Source := ⟨[97], q, 0, 300, NOT_EXISTS, 0, 300, {}⟩
def exBrkY : Source := ⟨[98], 2, 0, 3, NOT_EXISTS, 0, 3, {}⟩

def exBrkTry (items : List BItem) (rest : List Source) (p : Nat) : BTry :=
  ⟨items, rest, p, fun l => l.length, List.replicate 8192 0, List.replicate 4150 0, List.replicate 8192 255, false, 0, 2, 303⟩

theorem exBrkCfg_ok (ck : Bool) : (exBrkCfg ck).OK where
  crc := by
    intro x b
    show int32Min ≤ xorCrc x b ∧ xorCrc x b ≤ int32Max
    unfold xorCrc int32Min int32Max
    omega
  ver := ⟨show (0 : Int) ≤ 30 by decide, show (30 : Int) ≤ int32Max by decide⟩
  hver := Iff.rfl
  acc := by cases ck <;> decide
  st := by unfold exBrkCfg Settings.WF; cases ck <;> decide
  id := show 1 ≤ 200 by decide
  chunks := rfl
  foot := .inl (show (30 : Int) ≥ 12 by decide)

theorem exBrk_sendable (ck : Bool) (x : Source) (hx : x = exBrkX 1 ∨ x = exBrkX 0 ∨ x = exBrkY) : Sendable (exBrkCfg ck) x := by
  rcases hx with rfl | rfl | rfl
  · exact ⟨by unfold exBrkX Source.details BlockDetails.WF; decide, by decide, by decide, by cases ck <;> decide +kernel, by decide, by decide⟩
  · exact ⟨by unfold exBrkX Source.details BlockDetails.WF; decide, by decide, by decide, by cases ck <;> decide +kernel, by decide, by decide⟩
  · exact ⟨by unfold exBrkY Source.details BlockDetails.WF; decide, by decide, by decide, by cases ck <;> decide +kernel, by decide, by decide⟩

theorem exBrkTry_ok (items : List BItem) (rest : List Source) (p : Nat) (h : ∀ s, .size s ∈ items → NN s) (hl : items.length ≤ 200) :
    (exBrkTry items rest p).OK where
  buf := by show 8192 ≤ (List.replicate 8192 0).length; rw [List.length_replicate]; exact Nat.le_refl _
  hbuf := by show ((List.replicate 4150 (0 : UInt8)).length : Int) = _; rw [List.length_replicate]; rfl
  rbuf := by show 8192 ≤ (List.replicate 8192 255).length; rw [List.length_replicate]; exact Nat.le_refl _
  n := by show NN 2; decide
  total := by show NN 303; decide
  sizes := h
  few := Nat.le_trans (List.length_filter_le _ _) hl

/-- What is looked at in the cases: refused or not; checkpoint; writes; queue. -/
structure BrkView where
  refused : Bool
  cp : RcvCp
  written : List (Int × Int × Bytes)
  queue : List (Int × Int × Int)
deriving DecidableEq

def BSys.view (S : BSys) (refused : Bool) : BrkView :=
  ⟨refused, S.cp, S.written.map (fun e => (e.1.seqId, e.1.offset, e.2)), S.queue.map fun y => (y.seqId, y.offset, y.size)⟩

def brkView : Except Fault BRes → Option BrkView
  | .ok (.next S) => some (S.view false)
  | .ok (.refused S) => some (S.view true)
  | _ => none

/-- Case: the first connection breaks after 300 bytes, 275 of them data.  The rest is sent again. -/
example : brkView (bRun (exBrkCfg false) { queue := [exBrkX 1, exBrkY] }
      [exBrkTry [.size 303, .file 0 (exBrkX 1)] [exBrkY] 300]) =
    some ⟨false, ⟨0, some (1, 0, 275)⟩, [(1, 0, (List.range 275).map UInt8.ofNat)], [(2, 0, 3), (1, 275, 25)]⟩ := by
  decide +kernel

/-- Case: with checksums the whole block is sent again. -/
example : brkView (bRun (exBrkCfg true) { queue := [exBrkX 1, exBrkY] }
      [exBrkTry [.size 303, .file 0 (exBrkX 1)] [exBrkY] 300]) =
    some ⟨false, ⟨0, none⟩, [(1, 0, (List.range 275).map UInt8.ofNat)], [(2, 0, 3), (1, 0, 300)]⟩ := by
  decide +kernel

/-- The hypotheses of `C99_resume_partial` are met by these, with any number of connections that
break anywhere. -/
example (ck : Bool) (ps : List Nat) :
    ∃ r, bRun (exBrkCfg ck) { queue := [exBrkX 1, exBrkY] } (ps.map (exBrkTry [.size 303, .file 0 (exBrkX 1)] [exBrkY])) = .ok r ∧
      ∀ S, r ≠ .refused S := by
  obtain ⟨r, h1, _, h2, _⟩ := C99_resume_partial (exBrkCfg ck) (exBrkCfg_ok ck) [exBrkX 1, exBrkY]
    (by
      intro x hx
      simp only [List.mem_cons, List.not_mem_nil, or_false] at hx
      rcases hx with rfl | rfl
      · exact exBrk_sendable ck _ (.inl rfl)
      · exact exBrk_sendable ck _ (.inr (.inr rfl)))
    (by
      refine List.pairwise_cons.2 ⟨?_, List.pairwise_singleton _ _⟩
      intro y hy
      rw [List.mem_singleton] at hy
      subst hy
      exact .inl (by decide))
    (ps.map (exBrkTry [.size 303, .file 0 (exBrkX 1)] [exBrkY]))
    (by
      intro t ht
      obtain ⟨p, _, rfl⟩ := List.mem_map.1 ht
      refine exBrkTry_ok _ _ _ ?_ (by decide)
      intro s hs
      simp only [List.mem_cons, List.not_mem_nil, or_false, BItem.size.injEq, reduceCtorEq] at hs
      subst hs
      decide)
  refine ⟨r, h1, fun S hS => ?_⟩
  obtain ⟨_, x, hx, h0⟩ := h2 S hS
  simp only [List.mem_cons, List.not_mem_nil, or_false] at hx
  rcases hx with rfl | rfl <;> exact absurd h0 (by decide)

/-- The hypotheses of `C99_break_partial` are met: a file of two bytes and an empty one with
checksums, any break, any pieces. -/
example (frag : List Int → Nat) : ∃ stream,
    sendStream 30 30 xorCrc { readTimeoutMillis := 5000, writeTimeoutMillis := 5000, transferId := [120], enableChecksum := true }
      (List.replicate 4150 0) 0 2 2
      [.size 2, .block 0 { fileName := [97], seqId := 1, dataSize := 2, fileSize := 2 } [7, 8],
       .block 0 { fileName := [98], seqId := 2 } []] (List.replicate 8192 0) = .ok stream ∧
    ∀ p, p < stream.length → ∃ obs, receive frag xorCrc [120] 9 (.fresh (List.replicate 8192 255) (stream.take p) 30 false) =
      .ok (obs, .reconnect eSOCKET_READ_ERROR) := by
  obtain ⟨stream, h1, h2⟩ := C99_break_partial frag xorCrc (exBrkCfg_ok true).crc 30 30 30 ⟨by decide, by decide⟩ Iff.rfl (by decide)
    { readTimeoutMillis := 5000, writeTimeoutMillis := 5000, transferId := [120], enableChecksum := true }
    (by unfold Settings.WF; decide) (by decide) rfl (.inl (by decide))
    [.size 2, .block 0 { fileName := [97], seqId := 1, dataSize := 2, fileSize := 2 } [7, 8],
       .block 0 { fileName := [98], seqId := 2 } []]
    (by
      intro i hi
      simp only [List.mem_cons, List.not_mem_nil, or_false] at hi
      rcases hi with rfl | rfl | rfl
      · exact ⟨by decide, by decide⟩
      · refine ⟨?_, by decide, rfl, by decide⟩
        unfold BlockDetails.WF; decide
      · refine ⟨?_, by decide, rfl, by decide⟩
        unfold BlockDetails.WF; decide)
    (by decide) 0 2 2 (by decide) (by decide)
    (List.replicate 8192 0) (List.replicate 4150 0) (List.replicate 8192 255)
    (by rw [List.length_replicate]; exact Nat.le_refl _) (by rw [List.length_replicate]; rfl)
    (by rw [List.length_replicate]; exact Nat.le_refl _) false 9 (by decide)
  exact ⟨stream, h1, fun p hp => (h2 p hp).imp fun obs h => h.1⟩

/-- The hypotheses of `C99_encrypted_break_partial` are met by the small transfer of C98, with one tag:
no bytes of it are taken for the tag. -/
example : NoEcho toyCipher toyIvs 200 0 ⟨{ iv := List.replicate 16 9 }, 0⟩ smallStream := noEcho_of (by decide +kernel)

/-- Case: it breaks behind the tag, at two places; at the second the file has been written but its
checksum not looked at. -/
example : runConn (fun _ => some 99) ((smallConn 200).take 300) =
      some ([.settings smallSettings], .reconnect eSOCKET_READ_ERROR, eSOCKET_READ_ERROR) ∧
    runConn (fun _ => some 99) ((smallConn 200).take 310) =
      some ([.settings smallSettings, .size 2, .block { fileName := [97], seqId := 1, dataSize := 2, fileSize := 2 } [7, 8] true],
        .reconnect eSOCKET_READ_ERROR, eSOCKET_READ_ERROR) := by
  decide +kernel

/-- **C99** does not hold in full: a file with the sequence id 0 (which the first file gets when the
sender asks for a list of chunks and the receiver has none, DirectorySourceQueue.cpp:145-160).
The first connection breaks before any block has arrived; the second in the middle of this
file.  Then the sender refuses the checkpoint, and its thread ends with a protocol error
although nobody has made a mistake. -/
theorem C99_violated_refused :
    brkView (bRun (exBrkCfg false) { queue := [exBrkX 0] }
      [exBrkTry [.file 0 (exBrkX 0)] [] 200,
       exBrkTry [.file 0 { exBrkX 0 with stats := { effDataBytes := -300, numBlocks := -1, failedAttempts := 1, failed := true } }] [] 300]) =
    some ⟨true, ⟨0, some (0, 0, 278)⟩, [(0, 0, (List.range 278).map UInt8.ofNat)], []⟩ := by
  decide +kernel

/-- A name of 250 bytes, and a connection on which each read returns all that has arrived. -/
def exBrkLong : Source := ⟨List.replicate 250 97, 1, 0, 300, NOT_EXISTS, 0, 300, {}⟩
def exBrkTry1 (s : Source) (p : Nat) : BTry := { exBrkTry [.file 0 s] [] p with frag := fun _ => 8192 }

/-- The same happens with any other sequence id if the name is long (`C99_resume_partial` is about names of at
most 204 bytes): 256 bytes and no more than the header of the block arrive, so that the block is
known to the receiver and no byte of it is written.  With the next break in the middle of this
file the sender refuses a right checkpoint. -/
theorem C99_violated_long_name :
    brkView (bRun (exBrkCfg false) { queue := [exBrkLong] }
      [exBrkTry1 exBrkLong 272,
       exBrkTry1 { exBrkLong with stats := { effDataBytes := -300, numBlocks := -1, failedAttempts := 1, failed := true } } 276]) =
    some ⟨true, ⟨0, some (1, 0, 4)⟩, [(1, 0, []), (1, 0, [0, 1, 2, 3])], []⟩ := by
  decide +kernel

end Wdt
