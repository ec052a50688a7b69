import Verif.Lemmas.ReceiverStream
/-
C34: what a receiver thread extracts from a connection does not depend on how
the network splits the bytes.

The reference parser below works on the whole stream at once: no buffer, no
reads, no fragmentation.  The theorems say that the code does the same whatever
the fragmentation and whatever the buffer contained before, except for the
streams on which the reference parser gives up (`none`): those are the streams
for which the property is false, see the counterexamples at the end.
-/
namespace Wdt

/-! ### Reference parser -/

/-- Result of one command. `outside`: the reference parser makes no statement. -/
inductive SNext where
  | next (s : Bytes) (ver : Int) (footer : Bool) (slack : Nat)
  | stop (o : ROut)
  | outside
deriving DecidableEq

/-- Two bytes as a signed number. -/
def int16At (s : Bytes) (p : Nat) : Int :=
  if leNat ((s.drop p).take 2) < 32768 then leNat ((s.drop p).take 2) else (leNat ((s.drop p).take 2) : Int) - 65536

/-- A footer: `F`, checksum. -/
def specFooter (crc : Int → UInt8 → Int) (b : BlockDetails) (data : Bytes) (ver : Int) (s : Bytes) :
    List RObs × SNext :=
  if s.length < 256 then ([], .stop (.reconnect eSOCKET_READ_ERROR))
  else if s.head? ≠ some 0x46 then ([], .stop (.finish ePROTOCOL_ERROR))
  else match decodeInt32 ((s.take 11).drop 1) with
    | (none, _) => ([], .stop (.finish ePROTOCOL_ERROR))
    | (some sum, r) =>
      if data.foldl crc 0 ≠ sum then ([], .stop (.reconnect eCHECKSUM_MISMATCH))
      else ([.verified b], .next (s.drop (11 - r.length)) ver true (11 - r.length))

/-- A block: `L`, status, length of the header, header, data, footer. -/
def specFile (crc : Int → UInt8 → Int) (ver : Int) (footer : Bool) (s : Bytes) : List RObs × SNext :=
  if int16At s 2 ≤ 0 then ([], .stop (.finish ePROTOCOL_ERROR))
  else if int16At s 2 > 256 then ([], .outside)
  else match headerDec ver (s.drop 4) with
    | (none, _) => ([], .stop (.finish ePROTOCOL_ERROR))
    | (some b, r) =>
      if int16At s 2 ≠ (s.length : Int) - r.length then ([], .stop (.finish ePROTOCOL_ERROR))
      else if b.allocationStatus = TO_BE_DELETED ∧ (b.fileSize ≠ 0 ∨ b.dataSize ≠ 0) then
        ([], .stop (.finish ePROTOCOL_ERROR))
      else if (r.length : Int) < b.dataSize then ([.block b r false], .stop (.reconnect eSOCKET_READ_ERROR))
      else if footer then
        (.block b (r.take b.dataSize.toNat) true ::
            (specFooter crc b (r.take b.dataSize.toNat) ver (r.drop b.dataSize.toNat)).1,
          (specFooter crc b (r.take b.dataSize.toNat) ver (r.drop b.dataSize.toNat)).2)
      else ([.block b (r.take b.dataSize.toNat) true], .next (r.drop b.dataSize.toNat) ver footer 0)

/-- Settings: `S`, version, settings; no statement if they are not complete within 256 bytes or if
the sender goes on without waiting for the list of chunks it asked for. -/
def specSettings (id : Bytes) (ver : Int) (s : Bytes) (slack : Nat) : List RObs × SNext :=
  match decodeInt32C ((s.take 10).drop 1) with
  | (none, _) => ([], .stop (.finish ePROTOCOL_ERROR))
  | (some v, r) =>
    match receiverOnSettings v ver with
    | (_, .incompatible) => ([], .stop (.abort eVERSION_INCOMPATIBLE))
    | (_, .versionMismatch _) => ([], .stop (.abort eVERSION_MISMATCH))
    | (ver', .accept) =>
      match settingsDec ver' ((s.take 256).drop (10 - r.length)) with
      | (none, _) => ([], .outside)
      | (some st, r2) =>
        if st.transferId ≠ id then ([], .stop (.abort eID_MISMATCH))
        else if st.sendFileChunks then
          if s.length = 256 then ([.settings st], .stop .sendChunks) else ([], .outside)
        else ([.settings st],
          .next (s.drop (256 - r2.length)) ver' st.enableChecksum (slack + (256 - r2.length)))

/-- One command.  No statement about a DONE command that is not the end of what the sender wrote. -/
def specCmd (crc : Int → UInt8 → Int) (id : Bytes) (ver : Int) (footer : Bool) (s : Bytes) (slack : Nat) :
    List RObs × SNext :=
  if s.length < 256 then ([], .stop (.reconnect eSOCKET_READ_ERROR))
  else if s.head? = some 0x44 then
    if s.length = 256 then
      match (decodeInt64C.bind fun n =>
          if ver ≥ 16 then decodeInt64C.bind fun t => Dec.pure (n, some t)
          else Dec.pure (n, none)) ((s.take 22).drop 2) with
      | (none, _) => ([], .stop (.finish ePROTOCOL_ERROR))
      | (some (n, total), _) => ([], .stop (.done (s.getD 1 0) n total))
    else ([], .outside)
  else if s.head? = some 0x4C then specFile crc ver footer s
  else if s.head? = some 0x53 then specSettings id ver s slack
  else if s.head? = some 0x5A then
    match decodeInt64C ((s.take 11).drop 1) with
    | (none, _) => ([], .stop (.finish ePROTOCOL_ERROR))
    | (some total, r) =>
      ([.size total], .next (s.drop (11 - r.length)) ver footer (slack + (11 - r.length)))
  else ([], .stop (.finish ePROTOCOL_ERROR))

/-- The whole stream.  `slack` counts the bytes of settings and sizes since the last block; no
statement if there are more than 3000. -/
def specRun (crc : Int → UInt8 → Int) (id : Bytes) :
    Nat → Int → Bool → Bytes → Nat → Option (List RObs × ROut)
  | 0, _, _, _, _ => none
  | fuel + 1, ver, footer, s, slack =>
    match specCmd crc id ver footer s slack with
    | (_, .outside) => none
    | (obs, .stop o) => some (obs, o)
    | (obs, .next s' ver' footer' slack') =>
      if slack' > 3000 then none
      else match specRun crc id fuel ver' footer' s' slack' with
        | none => none
        | some (obs', o) => some (obs ++ obs', o)

/-! ### The code against the reference parser -/

/-- The buffer of a connection holds the beginning of the stream `s`. -/
structure Holds (c : RcvConn) (s : Bytes) (slack : Nat) : Prop where
  off : 0 ≤ c.off
  num : 0 ≤ c.numRead
  fits : c.off + c.numRead ≤ c.buf.length
  size : 8192 ≤ c.buf.length
  room : c.off + 4096 ≤ c.buf.length + slack
  slack : slack ≤ 3000
  data : s = seg c.buf c.off (c.off + c.numRead) ++ c.net.rest

theorem seg_rest {buf : Bytes} {off n : Int} {s rest : Bytes} (h0 : 0 ≤ off)
    (hb : off + n ≤ buf.length) (hs : s = seg buf off (off + n) ++ rest) (a : Nat) (ha : (a : Int) ≤ n) :
    seg buf (off + a) (off + n) ++ rest = s.drop a := by
  have h1 : seg buf off (off + n) = seg buf off (off + a) ++ seg buf (off + a) (off + n) :=
    seg_append _ _ _ _ h0 (by omega) (by omega) (by omega)
  have hl : (seg buf off (off + a)).length = a := by
    have := seg_length buf off (off + a) h0 (by omega) (by omega)
    omega
  rw [hs, h1, List.append_assoc, List.drop_left' hl]

theorem seg_stream_length {buf : Bytes} {off n : Int} {s rest : Bytes} (h0 : 0 ≤ off) (hn : 0 ≤ n)
    (hb : off + n ≤ buf.length) (hs : s = seg buf off (off + n) ++ rest) : (s.length : Int) = n + rest.length := by
  have := seg_length buf off (off + n) h0 (by omega) hb
  rw [hs, List.length_append]; omega

theorem withRange_stream {α : Type} (d : Dec α) {buf : Bytes} {off n : Int} {s rest : Bytes} (h0 : 0 ≤ off)
    (hb : off + n ≤ buf.length) (hs : s = seg buf off (off + n) ++ rest) (a k : Nat) (hak : a ≤ k) (hk : (k : Int) ≤ n) :
    withRange d buf (off + a) (off + k) = .ok ((d ((s.take k).drop a)).1,
      off + (k - (d ((s.take k).drop a)).2.length)) := by
  unfold withRange
  rw [makeByteRange_seg _ _ _ (by omega) (by omega) (by omega), seg_stream_prefix h0 hb hs a k hak hk]
  have := seg_stream_length h0 (by omega) hb hs
  have hl : (((s.take k).drop a).length : Int) = k - a := by
    rw [List.length_drop, List.length_take]; omega
  simp only [hl]
  congr 2
  omega

theorem suffixy_length {α : Type} {d : Dec α} (hd : Suffixy d) {br : Bytes} {x : Option α} {r : Bytes}
    (h : d br = (x, r)) : r.length ≤ br.length := by
  obtain ⟨p, hp⟩ := hd br
  rw [h] at hp
  have := congrArg List.length hp
  simp only [List.length_append] at this
  omega

/-- The relation proved for each handler. -/
def Agrees (r : Except Fault (List RObs × RNext)) (sp : List RObs × SNext) : Prop :=
  match sp with
  | (_, .outside) => True
  | (obs, .stop o) => r = .ok (obs, .stop o)
  | (obs, .next s' ver' footer' slack') =>
    ∃ c', r = .ok (obs, .next c') ∧ c'.ver = ver' ∧ c'.footer = footer' ∧ (slack' ≤ 3000 → Holds c' s' slack')

theorem footer_agrees (frag : List Int → Nat) (crc : Int → UInt8 → Int) (b : BlockDetails) (data : Bytes) (c : RcvConn)
    (s : Bytes) (h : Holds c s 0) (hf : c.footer = true) :
    Agrees (processFooter frag crc b data c) (specFooter crc b data c.ver s) := by
  obtain ⟨ho, hn, hfit, hsz, hroom, _, hdata⟩ := h
  obtain ⟨buf', n, net', e, hbl, h1, h2, h3, h4⟩ := readAtLeast_spec frag c.off (c.buf.length - c.off) kMinBufLength
    c.buf c.numRead c.net ho (by simp [kMinBufLength]) (by simp [kMinBufLength]; omega) hn (by omega) (by omega)
  have hs : s = seg buf' c.off (c.off + n) ++ net'.rest := by rw [h3, hdata]
  have hb' : c.off + n ≤ buf'.length := by omega
  have hlen := seg_stream_length ho (by omega) hb' hs
  unfold processFooter specFooter
  rw [e]
  have hk : kMinBufLength = 256 := rfl
  simp only
  by_cases hlt : n < kMinBufLength
  · have hr : net'.rest = [] := by rcases h4 with h4 | h4; omega; exact h4
    rw [hr] at hlen
    rw [if_pos hlt, if_pos (by simp at hlen; omega)]
    exact rfl
  · rw [if_neg hlt, if_neg (by omega)]
    obtain ⟨cmd, s', hc, hs'⟩ := loadByte_seg ho (by omega) hb' hs
    rw [hc]
    have hh : s.head? = some cmd := by rw [hs']; rfl
    simp only
    by_cases hcmd : cmd ≠ FOOTER_CMD
    · rw [if_pos hcmd, if_pos (by rw [hh]; intro h; exact hcmd (Option.some.inj h))]; exact rfl
    · rw [if_neg hcmd, if_neg (by rw [hh]; intro h; exact h (congrArg some (Decidable.not_not.mp hcmd)))]
      unfold decodeFooter
      have hw := withRange_stream decodeInt32 ho hb' hs 1 11 (by omega) (by omega)
      have hw' : withRange decodeInt32 buf' (c.off + 1) (c.off + kMaxFooter) = _ := hw
      rw [hw']
      rcases hd : decodeInt32 ((s.take 11).drop 1) with ⟨_ | sum, r⟩
      · exact rfl
      · have hrl := suffixy_length suffixy_decodeInt32 hd
        rw [List.length_drop, List.length_take] at hrl
        simp only
        by_cases hsum : data.foldl crc 0 ≠ sum
        · rw [if_pos hsum, if_pos hsum]; exact rfl
        · rw [if_neg hsum, if_neg hsum]
          refine ⟨_, rfl, rfl, hf, fun _ => ?_⟩
          refine ⟨by simp only; omega, by simp only; omega, by simp only; omega, by simp only; omega,
            by simp only; omega, by omega, ?_⟩
          simp only
          have := seg_rest ho hb' hs (11 - r.length) (by omega)
          rw [← this]
          congr 2 <;> omega

theorem keep_agrees {c : RcvConn} {old n : Int} {r rest : Bytes} (first : Bytes) (net' : RNet)
    (buf' : Bytes) (b : Int) (hb0 : 0 ≤ b) (ho : 0 ≤ c.off)
    (hr : r = seg c.buf c.off (old + n)) (hon : c.off ≤ old + n) (hfit : old + n ≤ c.buf.length)
    (hsz : 8192 ≤ c.buf.length)
    (hfirst : first = r.take b.toNat) (hbl : buf'.length = c.buf.length)
    (hnet : net'.rest = rest.drop (b - r.length).toNat) (hsame : b - min (r.length : Int) b = 0 → buf' = c.buf) :
    ∃ c', keepLeftover { c with buf := buf', net := net', off := c.off + first.length }
        (n + old - c.off - first.length) = .ok c' ∧ c'.ver = c.ver ∧ c'.footer = c.footer ∧
        Holds c' ((r ++ rest).drop b.toNat) 0 := by
  have hrl : (r.length : Int) = old + n - c.off := by rw [hr]; exact seg_length _ _ _ ho hon hfit
  have hfl : (first.length : Int) = min (r.length : Int) b := by rw [hfirst, List.length_take]; omega
  unfold keepLeftover
  simp only
  by_cases hrem : n + old - c.off - first.length > 0
  · rw [if_pos hrem]
    have hbr : b < r.length := by omega
    have hbuf := hsame (by omega)
    subst hbuf
    have hnet' : net'.rest = rest := by rw [hnet, show (b - r.length).toNat = 0 by omega, List.drop_zero]
    have hfb : (first.length : Int) = b := by omega
    have hseg : seg c.buf (c.off + first.length) (old + n) = r.drop b.toNat := by
      have h1 := (loadBytes_seg c.buf first.length c.off (old + n) ho (by omega) hfit).2
      rw [h1, ← hr]; congr 1; omega
    have hdrop : (r ++ rest).drop b.toNat = r.drop b.toNat ++ rest := by
      rw [List.drop_append_of_le_length (by omega)]
    by_cases hmove : n + old - c.off - first.length < kMaxHeader ∧ c.off + first.length > (c.buf.length : Int) / 2
    · rw [if_pos hmove]
      obtain ⟨l1, _⟩ := loadBytes_seg c.buf (n + old - c.off - first.length).toNat (c.off + first.length) (old + n)
        (by omega) (by omega) hfit
      rw [l1]
      have hsl := seg_length c.buf (c.off + first.length) (old + n) (by omega) (by omega) hfit
      rw [List.take_of_length_le (by omega)]
      simp only
      rw [storeBytes_ok _ _ 0 (by omega) (by omega)]
      refine ⟨_, rfl, rfl, rfl, ⟨by simp, by simp only; omega, ?_, ?_, ?_, by omega, ?_⟩⟩
      · simp only; rw [splice_length _ _ _ (by simp; omega)]; omega
      · simp only; rw [splice_length _ _ _ (by simp; omega)]; omega
      · simp only; rw [splice_length _ _ _ (by simp; omega)]; omega
      · simp only
        have := seg_splice_stream (buf := c.buf) (base := 0) (len := 0) (bs := seg c.buf (c.off + first.length) (old + n))
          (by omega) (by omega) (by omega)
        have e0 : (0 : Int) + (n + old - c.off - first.length) = 0 + (0 + (seg c.buf (c.off + first.length) (old + n)).length) := by
          omega
        rw [e0, hdrop]
        have e1 : ((0 : Int) + 0).toNat = (0 : Int).toNat := rfl
        rw [e1] at this
        rw [this, seg_empty _ _ _ (by omega), List.nil_append, hseg, hnet']
    · rw [if_neg hmove]
      refine ⟨_, rfl, rfl, rfl, ⟨by simp only; omega, by simp only; omega, by simp only; omega, by simp only; omega, ?_, by omega, ?_⟩⟩
      · simp only
        simp only [kMaxHeader, PATH_MAX] at hmove
        omega
      · simp only
        rw [hdrop, ← hseg, hnet']
        congr 2; omega
  · rw [if_neg hrem]
    refine ⟨_, rfl, rfl, rfl, ⟨by simp, by simp, by simp only; omega, by simp only; omega, by simp only; omega, by omega, ?_⟩⟩
    simp only
    rw [seg_empty _ _ _ (by omega), List.nil_append, hnet, List.drop_append, List.drop_of_length_le (by omega), List.nil_append]
    congr 1; omega

theorem block_agrees (frag : List Int → Nat) (crc : Int → UInt8 → Int) (b : BlockDetails) (c : RcvConn) (old : Int)
    (r : Bytes) (hb0 : 0 ≤ b.dataSize) (ho : 0 ≤ c.off) (hr : r = seg c.buf c.off (old + c.numRead))
    (hon : c.off ≤ old + c.numRead) (hfit : old + c.numRead ≤ c.buf.length) (hsz : 8192 ≤ c.buf.length) :
    Agrees (processBlock frag crc b c old)
      (if ((r ++ c.net.rest).length : Int) < b.dataSize then
        ([.block b (r ++ c.net.rest) false], .stop (.reconnect eSOCKET_READ_ERROR))
      else if c.footer then
        (.block b ((r ++ c.net.rest).take b.dataSize.toNat) true ::
            (specFooter crc b ((r ++ c.net.rest).take b.dataSize.toNat) c.ver ((r ++ c.net.rest).drop b.dataSize.toNat)).1,
          (specFooter crc b ((r ++ c.net.rest).take b.dataSize.toNat) c.ver ((r ++ c.net.rest).drop b.dataSize.toNat)).2)
      else ([.block b ((r ++ c.net.rest).take b.dataSize.toNat) true],
        .next ((r ++ c.net.rest).drop b.dataSize.toNat) c.ver c.footer 0)) := by
  have hrl : (r.length : Int) = old + c.numRead - c.off := by rw [hr]; exact seg_length _ _ _ ho hon hfit
  unfold processBlock
  rw [if_neg (by omega)]
  obtain ⟨l1, _⟩ := loadBytes_seg c.buf (min (c.numRead + old - c.off) b.dataSize).toNat c.off (old + c.numRead)
    ho (by omega) hfit
  rw [l1, ← hr]
  have e1 : c.numRead + old - c.off = r.length := by omega
  have hfirst : r.take (min (c.numRead + old - c.off) b.dataSize).toNat = r.take b.dataSize.toNat := by
    rw [e1]
    by_cases hc : b.dataSize ≤ r.length
    · congr 1; omega
    · rw [List.take_of_length_le (by omega), List.take_of_length_le (by omega)]
  obtain ⟨buf', net', e, hbl, hnet, hsame⟩ := readBlockLoop_spec frag (c.net.rest.length + 1) c.buf
    (b.dataSize - min (c.numRead + old - c.off) b.dataSize) c.net (by omega) (by omega) (by omega)
  rw [e]
  simp only [hfirst]
  have e2 : (b.dataSize - min (c.numRead + old - c.off) b.dataSize).toNat = b.dataSize.toNat - r.length := by omega
  have hall : r.take b.dataSize.toNat ++ c.net.rest.take (b.dataSize - min (c.numRead + old - c.off) b.dataSize).toNat =
      (r ++ c.net.rest).take b.dataSize.toNat := by rw [List.take_append, e2]
  rw [hall]
  by_cases hinc : ((r ++ c.net.rest).length : Int) < b.dataSize
  · rw [if_pos hinc, List.take_of_length_le (by omega), if_pos (by omega)]
    exact rfl
  · rw [if_neg hinc, if_neg (by rw [List.length_take]; omega)]
    obtain ⟨c', hk, hv, hfo, hh⟩ := keep_agrees (c := c) (n := c.numRead) (rest := c.net.rest) (r.take b.dataSize.toNat) net' buf'
      b.dataSize hb0 ho hr hon hfit hsz rfl hbl (by rw [hnet]; congr 1; omega) (fun h => hsame (by omega))
    rw [hk]
    simp only [hfo]
    by_cases hf : c.footer = true
    · rw [if_pos hf, if_pos hf]
      have := footer_agrees frag crc b ((r ++ c.net.rest).take b.dataSize.toNat) c' _ hh (by rw [hfo, hf])
      rw [hv] at this
      revert this
      generalize specFooter crc b ((r ++ c.net.rest).take b.dataSize.toNat) c.ver ((r ++ c.net.rest).drop b.dataSize.toNat) = sp
      obtain ⟨obs, _ | _ | _⟩ := sp
      · rintro ⟨c2, h1, h2, h3, h4⟩
        rw [h1]
        exact ⟨c2, rfl, h2, h3, h4⟩
      · intro h1
        simp only [Agrees] at h1
        rw [h1]; exact rfl
      · intro _; trivial
    · rw [if_neg hf, if_neg hf]
      exact ⟨c', rfl, hv, hfo, fun _ => hh⟩

/-- After `readAtLeast` of the minimum: where the stream is. -/
structure Win (c : RcvConn) (old : Int) (s : Bytes) (slack : Nat) : Prop where
  pos : 0 ≤ old
  off : c.off = old + 1
  num : 256 ≤ c.numRead
  fits : old + c.numRead ≤ c.buf.length
  size : 8192 ≤ c.buf.length
  room : old + 4096 ≤ c.buf.length + slack
  slack : slack ≤ 3000
  data : s = seg c.buf old (old + c.numRead) ++ c.net.rest

theorem Win.length {c : RcvConn} {old : Int} {s : Bytes} {slack : Nat} (h : Win c old s slack) :
    (s.length : Int) = c.numRead + c.net.rest.length :=
  seg_stream_length h.pos (by have := h.num; omega) h.fits h.data

theorem headerDec_dataSize {ver : Int} {br : Bytes} {b : BlockDetails} {r : Bytes}
    (h : headerDec ver br = (some b, r)) : 0 ≤ b.dataSize := by
  unfold headerDec decodeHeaderFixed Dec.bind at h
  rcases h1 : decodeString br with ⟨_ | x1, r1⟩
  · simp [h1] at h
  simp only [h1] at h
  rcases h2 : decodeInt64C r1 with ⟨_ | x2, r2⟩
  · simp [h2] at h
  simp only [h2] at h
  rcases h3 : decodeInt64C r2 with ⟨_ | x3, r3⟩
  · simp [h3] at h
  simp only [h3] at h
  rcases h4 : decodeInt64C r3 with ⟨_ | x4, r4⟩
  · simp [h4] at h
  simp only [h4] at h
  rcases h5 : decodeInt64C r4 with ⟨_ | x5, r5⟩
  · simp [h5] at h
  simp only [h5, Dec.pure] at h
  have hx := (decodeInt64C_some h3).1
  split at h
  · unfold decodeHeaderFlags Dec.bind at h
    cases r5 with
    | nil => simp [decodeByte] at h
    | cons f r6 =>
      simp only [decodeByte] at h
      split at h
      · rcases h6 : decodeInt64C r6 with ⟨_ | x6, r7⟩
        · simp [h6] at h
        · simp only [h6, Dec.pure, Prod.mk.injEq, Option.some.injEq] at h
          rw [← h.1]; exact hx
      · simp only [Dec.pure, Prod.mk.injEq, Option.some.injEq] at h
        rw [← h.1]; exact hx
  · simp only [Dec.pure, Prod.mk.injEq, Option.some.injEq] at h
    rw [← h.1]; exact hx

theorem file_agrees (frag : List Int → Nat) (crc : Int → UInt8 → Int) (c : RcvConn) (old : Int) (s : Bytes) (slack : Nat)
    (h : Win c old s slack) : Agrees (processFile frag crc c old) (specFile crc c.ver c.footer s) := by
  have hlen := h.length
  obtain ⟨hold, hoff, hnum, hfit, hsz, hroom, hsl, hdata⟩ := h
  have h16 : loadInt16 c.buf (c.off + 1) = .ok (int16At s 2) := by
    unfold loadInt16 int16At
    obtain ⟨l1, _⟩ := loadBytes_seg c.buf 2 (old + (2 : Nat)) (old + (4 : Nat)) (by omega) (by omega) (by omega)
    have e : c.off + 1 = old + (2 : Nat) := by omega
    rw [e, l1, seg_stream_prefix hold hfit hdata 2 4 (by omega) (by omega)]
    have e2 : ((s.take 4).drop 2).take 2 = (s.drop 2).take 2 := by
      rw [List.drop_take, List.take_take]; rfl
    rw [e2]
  unfold processFile specFile
  rw [h16]
  generalize int16At s 2 = hl
  simp only
  by_cases h1 : hl ≤ 0
  · rw [if_pos h1, if_pos h1]; exact rfl
  rw [if_neg h1, if_neg h1]
  by_cases h2 : hl > 256
  · rw [if_pos h2]; trivial
  rw [if_neg h2, if_neg (show ¬ hl > c.numRead by omega)]
  simp only
  rw [if_neg (by omega)]
  have hr := makeByteRange_seg c.buf (c.off + 3) (c.numRead + old) (by omega) (by omega) (by omega)
  obtain ⟨o, hd, ho⟩ := decodeHeader_eq (ver := c.ver) hr
  rw [hd]
  have hsd : seg c.buf (c.off + 3) (c.numRead + old) ++ c.net.rest = s.drop 4 := by
    have := seg_rest hold hfit hdata 4 (by omega)
    rw [← this]; congr 2 <;> omega
  have hrlen := seg_length c.buf (c.off + 3) (c.numRead + old) (by omega) (by omega) (by omega)
  generalize hX : seg c.buf (c.off + 3) (c.numRead + old) = X at *
  rcases hx : headerDec c.ver X with ⟨_ | b, r⟩
  · -- the code fails to decode
    have himpl : (if hl ≠ o - old then (Except.ok ([], RNext.stop (ROut.finish ePROTOCOL_ERROR)) : Except Fault (List RObs × RNext))
      else .ok ([], .stop (.finish ePROTOCOL_ERROR))) = .ok ([], .stop (.finish ePROTOCOL_ERROR)) := by split <;> rfl
    simp only [himpl]
    rcases hs : headerDec c.ver (s.drop 4) with ⟨_ | b, r'⟩
    · exact rfl
    · simp only
      by_cases hc : hl ≠ (s.length : Int) - r'.length
      · rw [if_pos hc]; exact rfl
      · exfalso
        obtain ⟨w, hw, hp⟩ := local_headerDec _ _ _ _ hs
        have hl4 : (s.drop 4).length = w.length + r'.length := by rw [hw, List.length_append]
        rw [List.length_drop] at hl4
        have hwX : w.length ≤ X.length := by omega
        have : X = w ++ X.drop w.length := by
          have := congrArg (List.take w.length) (hsd.trans hw)
          rw [List.take_append_of_le_length hwX, List.take_left' rfl] at this
          rw [← this, List.length_take, Nat.min_eq_left hwX, List.take_append_drop]
        rw [this, hp] at hx
        simp at hx
  · obtain ⟨w, hw, hp⟩ := local_headerDec _ _ _ _ hx
    have hs : headerDec c.ver (s.drop 4) = (some b, r ++ c.net.rest) := by
      rw [← hsd, hw, List.append_assoc, hp]
    rw [hx] at ho
    have ho' := ho (by simp)
    simp only [hs]
    have hXl : X.length = w.length + r.length := by rw [hw, List.length_append]
    have hcond : (hl ≠ o - old) ↔ (hl ≠ (s.length : Int) - (r ++ c.net.rest).length) := by
      rw [List.length_append]; simp only at ho'; omega
    by_cases hc : hl ≠ o - old
    · rw [if_pos hc, if_pos (hcond.mp hc)]; exact rfl
    · rw [if_neg hc, if_neg (fun h => hc (hcond.mpr h))]
      by_cases hdel : b.allocationStatus = TO_BE_DELETED ∧ (b.fileSize ≠ 0 ∨ b.dataSize ≠ 0)
      · rw [if_pos hdel, if_pos hdel]; exact rfl
      · rw [if_neg hdel, if_neg hdel]
        simp only at ho'
        have hseg : r = seg c.buf o (old + c.numRead) := by
          have h1 := (loadBytes_seg c.buf w.length (c.off + 3) (c.numRead + old) (by omega) (by omega) (by omega)).2
          rw [hX, hw, List.drop_left' rfl] at h1
          rw [← h1]; congr 1 <;> omega
        exact block_agrees frag crc b { c with off := o } old r (headerDec_dataSize hx)
          (by simp only; omega) hseg (by simp only; omega) hfit hsz

theorem size_agrees (c : RcvConn) (old : Int) (s : Bytes) (slack : Nat) (h : Win c old s slack) :
    Agrees (processSize c old) (match decodeInt64C ((s.take 11).drop 1) with
      | (none, _) => ([], .stop (.finish ePROTOCOL_ERROR))
      | (some total, r) => ([.size total], .next (s.drop (11 - r.length)) c.ver c.footer (slack + (11 - r.length)))) := by
  have hlen := h.length
  obtain ⟨hold, hoff, hnum, hfit, hsz, hroom, hsl, hdata⟩ := h
  unfold processSize decodeSize
  have hw := withRange_stream decodeInt64C hold hfit hdata 1 11 (by omega) (by omega)
  have hw' := hw
  rw [show old + ((1 : Nat) : Int) = c.off by omega, show old + ((11 : Nat) : Int) = old + kMaxSize from rfl] at hw'
  rw [hw']
  rcases hd : decodeInt64C ((s.take 11).drop 1) with ⟨_ | total, r⟩
  · exact rfl
  · have hrl := suffixy_length suffixy_decodeInt64C hd
    rw [List.length_drop, List.length_take] at hrl
    simp only
    refine ⟨_, rfl, rfl, rfl, fun _ => ?_⟩
    refine ⟨by simp only; omega, by simp only; omega, by simp only; omega, by simp only; omega,
      by simp only; omega, by omega, ?_⟩
    simp only
    have := seg_rest hold hfit hdata (11 - r.length) (by omega)
    rw [← this]
    congr 2 <;> omega

theorem done_agrees (c : RcvConn) (old : Int) (s : Bytes) (slack : Nat) (h : Win c old s slack) (hs : s.length = 256) :
    Agrees (processDone c old) (match (decodeInt64C.bind fun n =>
          if c.ver ≥ 16 then decodeInt64C.bind fun t => Dec.pure (n, some t)
          else Dec.pure (n, none)) ((s.take 22).drop 2) with
      | (none, _) => ([], .stop (.finish ePROTOCOL_ERROR))
      | (some (n, total), _) => ([], .stop (.done (s.getD 1 0) n total))) := by
  have hlen := h.length
  obtain ⟨hold, hoff, hnum, hfit, hsz, hroom, hsl, hdata⟩ := h
  have hdec : ∀ o m, decodeDone c.ver c.buf o m = withRange (decodeInt64C.bind fun n =>
          if c.ver ≥ 16 then decodeInt64C.bind fun t => Dec.pure (n, some t)
          else Dec.pure (n, none)) c.buf o m := fun _ _ => rfl
  unfold processDone
  have hk : kMinBufLength = 256 := rfl
  rw [if_neg (by omega)]
  have hrest := seg_rest hold hfit hdata 1 (by omega)
  have hrest' : s.drop 1 = seg c.buf c.off (c.off + (c.numRead - 1)) ++ c.net.rest := by
    rw [← hrest, hoff]; congr 2; omega
  obtain ⟨st, s', hst, hs'⟩ := loadByte_seg (by omega) (by omega) (by omega) hrest'
  have hg : s.getD 1 0 = st := by
    cases s with
    | nil => simp at hs
    | cons x s1 =>
      simp only [List.drop_succ_cons, List.drop_zero] at hs'
      rw [hs']; rfl
  rw [hst, hg]
  have hw := fun d : Dec (Int × Option Int) => withRange_stream d hold hfit hdata 2 22 (by omega) (by omega)
  have hw' : ∀ d : Dec (Int × Option Int), withRange d c.buf (c.off + 1) (old + kMaxDone) = .ok ((d ((s.take 22).drop 2)).1,
      old + ((22 : Nat) - (d ((s.take 22).drop 2)).2.length)) := by
    intro d; rw [← hw d]; congr 1; omega
  simp only [hdec, hw']
  generalize (Dec.bind decodeInt64C fun n => if c.ver ≥ 16 then Dec.bind decodeInt64C fun t => Dec.pure (n, some t)
    else Dec.pure (n, none)) ((s.take 22).drop 2) = x
  obtain ⟨_ | ⟨n, t⟩, r⟩ := x
  · exact rfl
  · exact rfl

theorem settings_agrees (id : Bytes) (c : RcvConn) (old : Int) (s : Bytes) (slack : Nat) (h : Win c old s slack) :
    Agrees (processSettings id c old) (specSettings id c.ver s slack) := by
  have hlen := h.length
  obtain ⟨hold, hoff, hnum, hfit, hsz, hroom, hsl, hdata⟩ := h
  unfold processSettings specSettings decodeVersion
  have hw := withRange_stream decodeInt32C hold hfit hdata 1 10 (by omega) (by omega)
  have hw' := hw
  rw [show old + ((1 : Nat) : Int) = c.off by omega, show old + ((10 : Nat) : Int) = old + kMaxVersion from rfl] at hw'
  rw [hw']
  rcases hd : decodeInt32C ((s.take 10).drop 1) with ⟨_ | v, r⟩
  · exact rfl
  have hrl := suffixy_length suffixy_decodeInt32C hd
  rw [List.length_drop, List.length_take] at hrl
  simp only
  rcases hro : receiverOnSettings v c.ver with ⟨ver', _ | w | _⟩
  · simp only
    rcases hsd : settingsDec ver' ((s.take 256).drop (10 - r.length)) with ⟨_ | st, r2⟩
    · trivial
    obtain ⟨w, hw1, hp⟩ := local_settingsDec _ _ _ _ hsd
    have hrl2 : r2.length ≤ 256 - (10 - r.length) := by
      have := congrArg List.length hw1
      rw [List.length_drop, List.length_take, List.length_append] at this
      omega
    have hmb := makeByteRange_seg c.buf (old + ((10 : Nat) - r.length)) (old + kMaxVersion + kMaxSettings) (by omega)
      (by simp only [kMaxVersion, kMaxSettings, kMaxTransferIdLength]; omega)
      (by simp only [kMaxVersion, kMaxSettings, kMaxTransferIdLength]; omega)
    have hsplit : seg c.buf (old + ((10 : Nat) - r.length)) (old + kMaxVersion + kMaxSettings) =
        w ++ (r2 ++ seg c.buf (old + 256) (old + kMaxVersion + kMaxSettings)) := by
      have h1 := seg_append c.buf (old + ((10 : Nat) - r.length)) (old + 256) (old + kMaxVersion + kMaxSettings)
        (by omega) (by omega) (by simp only [kMaxVersion, kMaxSettings, kMaxTransferIdLength]; omega)
        (by simp only [kMaxVersion, kMaxSettings, kMaxTransferIdLength]; omega)
      have h2 := seg_stream_prefix hold hfit hdata (10 - r.length) 256 (by omega) (by omega)
      rw [h1, ← List.append_assoc, ← hw1, ← h2]
      congr 2; omega
    have hdec := decodeSettings_eq (ver := ver') (by omega)
      (by simp only [kMaxVersion, kMaxSettings, kMaxTransferIdLength]; omega) hmb (s := st)
      (r := r2 ++ seg c.buf (old + 256) (old + kMaxVersion + kMaxSettings)) (by rw [hsplit]; exact hp _)
    rw [hdec]
    simp only
    by_cases hid : st.transferId ≠ id
    · rw [if_pos hid, if_pos hid]; exact rfl
    rw [if_neg hid, if_neg hid]
    by_cases hch : st.sendFileChunks = true
    · rw [if_pos hch, if_pos hch]
      split
      · exact rfl
      · trivial
    rw [if_neg hch, if_neg hch]
    have hl1 : ((seg c.buf (old + ((10 : Nat) - r.length)) (old + kMaxVersion + kMaxSettings)).length : Int) -
        (r2 ++ seg c.buf (old + 256) (old + kMaxVersion + kMaxSettings)).length = w.length := by
      rw [hsplit]; simp only [List.length_append]; omega
    have hwl : w.length = 256 - (10 - r.length) - r2.length := by
      have := congrArg List.length hw1
      rw [List.length_drop, List.length_take, List.length_append] at this
      omega
    rw [hl1]
    refine ⟨_, rfl, rfl, rfl, fun _ => ?_⟩
    refine ⟨by simp only; omega, by simp only; omega, by simp only; omega, by simp only; omega,
      by simp only; omega, by omega, ?_⟩
    simp only
    have := seg_rest hold hfit hdata (256 - r2.length) (by omega)
    rw [← this]
    congr 2 <;> omega
  · exact rfl
  · exact rfl

theorem cmd_agrees (frag : List Int → Nat) (crc : Int → UInt8 → Int) (id : Bytes) (c : RcvConn) (s : Bytes) (slack : Nat)
    (h : Holds c s slack) : Agrees (readNextCmd frag crc id c) (specCmd crc id c.ver c.footer s slack) := by
  obtain ⟨ho, hn, hfit, hsz, hroom, hsl, hdata⟩ := h
  obtain ⟨buf', n, net', e, hbl, h1, h2, h3, h4⟩ := readAtLeast_spec frag c.off (c.buf.length - c.off) kMinBufLength
    c.buf c.numRead c.net ho (by simp [kMinBufLength]) (by simp [kMinBufLength]; omega) hn (by omega) (by omega)
  have hs : s = seg buf' c.off (c.off + n) ++ net'.rest := by rw [h3, hdata]
  have hb' : c.off + n ≤ buf'.length := by omega
  have hlen := seg_stream_length ho (by omega) hb' hs
  unfold readNextCmd specCmd
  rw [e]
  have hk : kMinBufLength = 256 := rfl
  simp only
  by_cases hlt : n < kMinBufLength
  · have hr : net'.rest = [] := by rcases h4 with h4 | h4; omega; exact h4
    rw [hr] at hlen
    rw [if_pos hlt, if_pos (by simp at hlen; omega)]
    exact rfl
  · rw [if_neg hlt, if_neg (by omega)]
    obtain ⟨cmd, s', hc, hs'⟩ := loadByte_seg ho (by omega) hb' hs
    rw [hc]
    have hh : ∀ x : UInt8, s.head? = some x ↔ cmd = x := by
      intro x; rw [hs']; simp
    have hwin : Win { c with buf := buf', numRead := n, net := net', off := c.off + 1 } c.off s slack :=
      ⟨ho, rfl, by simp only; omega, hb', by simp only; omega, by simp only; omega, hsl, hs⟩
    simp only
    by_cases c1 : cmd = DONE_CMD
    · rw [if_pos c1, if_pos ((hh 0x44).mpr c1)]
      split
      · exact done_agrees _ _ _ _ hwin (by assumption)
      · trivial
    rw [if_neg c1, if_neg (fun h => c1 ((hh 0x44).mp h))]
    by_cases c2 : cmd = FILE_CMD
    · rw [if_pos c2, if_pos ((hh 0x4C).mpr c2)]
      exact file_agrees frag crc _ _ _ _ hwin
    rw [if_neg c2, if_neg (fun h => c2 ((hh 0x4C).mp h))]
    by_cases c3 : cmd = SETTINGS_CMD
    · rw [if_pos c3, if_pos ((hh 0x53).mpr c3)]
      exact settings_agrees id _ _ _ _ hwin
    rw [if_neg c3, if_neg (fun h => c3 ((hh 0x53).mp h))]
    by_cases c4 : cmd = SIZE_CMD
    · rw [if_pos c4, if_pos ((hh 0x5A).mpr c4)]
      exact size_agrees _ _ _ _ hwin
    rw [if_neg c4, if_neg (fun h => c4 ((hh 0x5A).mp h))]
    exact rfl

theorem receive_agrees (frag : List Int → Nat) (crc : Int → UInt8 → Int) (id : Bytes) : ∀ (fuel : Nat) (c : RcvConn)
    (s : Bytes) (slack : Nat), Holds c s slack → ∀ r, specRun crc id fuel c.ver c.footer s slack = some r →
      receive frag crc id fuel c = .ok r := by
  intro fuel
  induction fuel with
  | zero => intro c s slack _ r h; simp [specRun] at h
  | succ fuel ih =>
    intro c s slack hH r h
    have hag := cmd_agrees frag crc id c s slack hH
    rw [specRun] at h
    rw [receive]
    revert h hag
    generalize specCmd crc id c.ver c.footer s slack = sp
    obtain ⟨obs, ⟨s', ver', f', sl'⟩ | o | _⟩ := sp
    · rintro h ⟨c', e, hv, hf, hh⟩
      simp only at h
      rw [e]
      simp only
      split at h
      · cases h
      · rename_i hsl
        rcases hr : specRun crc id fuel ver' f' s' sl' with _ | ⟨obs', o⟩
        · rw [hr] at h; cases h
        · rw [hr] at h
          rw [ih c' s' sl' (hh (by omega)) (obs', o) (by rw [hv, hf]; exact hr)]
          simp only at h ⊢
          cases h; rfl
    · intro h hag
      simp only [Agrees] at hag
      simp only at h
      rw [hag]
      cases h; rfl
    · intro h; simp only at h; cases h

/-- **C34** (partial: without the streams on which the reference parser makes no statement).
Whatever the buffer (of a size the code allows) contained, however the network splits the stream:
the code does exactly what the reference parser says about the bytes. -/
theorem C34_parse_partial (frag : List Int → Nat) (crc : Int → UInt8 → Int) (id buf stream : Bytes) (ver : Int)
    (footer : Bool) (hbuf : 8192 ≤ buf.length) (fuel : Nat) (r : List RObs × ROut)
    (h : specRun crc id fuel ver footer stream 0 = some r) :
    receive frag crc id fuel (.fresh buf stream ver footer) = .ok r := by
  refine receive_agrees frag crc id fuel (.fresh buf stream ver footer) stream 0 ?_ r h
  refine ⟨by simp [RcvConn.fresh], by simp [RcvConn.fresh], by simp [RcvConn.fresh], hbuf, ?_, by omega, ?_⟩
  · simp only [RcvConn.fresh]; omega
  · simp only [RcvConn.fresh]; rw [seg_empty _ _ _ (by omega)]; rfl

/-- Two ways of cutting the same stream, two buffers: the same result (partial: as above). -/
theorem C34_fragmentation_partial (frag frag' : List Int → Nat) (crc : Int → UInt8 → Int) (id buf buf' stream : Bytes)
    (ver : Int) (footer : Bool) (hbuf : 8192 ≤ buf.length) (hbuf' : 8192 ≤ buf'.length) (fuel : Nat)
    (h : specRun crc id fuel ver footer stream 0 ≠ none) :
    receive frag crc id fuel (.fresh buf stream ver footer) =
      receive frag' crc id fuel (.fresh buf' stream ver footer) := by
  rcases hr : specRun crc id fuel ver footer stream 0 with _ | r
  · exact absurd hr h
  · rw [C34_parse_partial frag crc id buf stream ver footer hbuf fuel r hr,
      C34_parse_partial frag' crc id buf' stream ver footer hbuf' fuel r hr]

/-- A sender that writes anything behind its DONE, whatever it is, is not taken to have
finished if some of that arrives together with the DONE. -/
theorem C34_bytes_behind_done (frag : List Int → Nat) (crc : Int → UInt8 → Int) (id buf rest : Bytes) (ver : Int)
    (footer : Bool) (fuel : Nat) (hbuf : 256 < buf.length) (hrest : 256 ≤ rest.length) (hfrag : 256 ≤ frag [(buf.length : Int)]) :
    receive frag crc id (fuel + 1) (.fresh buf (DONE_CMD :: rest) ver footer) = .ok ([], .finish ePROTOCOL_ERROR) := by
  have hk : kMinBufLength = 256 := rfl
  obtain ⟨m, hm⟩ : ∃ m, min (frag [(buf.length : Int)] + 1) buf.length = m := ⟨_, rfl⟩
  have hm' : 257 ≤ m := by omega
  have hmb : m ≤ buf.length := by omega
  have hread : netRead frag buf.length { rest := DONE_CMD :: rest } =
      ((DONE_CMD :: rest).take m, { rest := (DONE_CMD :: rest).drop m, k := 1, asked := [(buf.length : Int)] }) := by
    unfold netRead; simp only [Int.toNat_natCast]; rw [hm]
  have htl : 257 ≤ ((DONE_CMD :: rest).take m).length := by simp only [List.length_take, List.length_cons]; omega
  have htu : ((DONE_CMD :: rest).take m).length ≤ buf.length := by simp only [List.length_take]; omega
  have hst : storeBytes buf 0 ((DONE_CMD :: rest).take m) = .ok (splice buf 0 ((DONE_CMD :: rest).take m)) :=
    storeBytes_ok _ buf 0 (by omega) (by omega)
  have hne : (DONE_CMD :: rest).take m ≠ [] := by
    intro h; rw [h] at htl; simp at htl
  have hloop : readAtLeast frag 0 buf.length kMinBufLength buf 0 { rest := DONE_CMD :: rest } =
      .ok (splice buf 0 ((DONE_CMD :: rest).take m), ((DONE_CMD :: rest).take m).length, { rest := (DONE_CMD :: rest).drop m, k := 1, asked := [(buf.length : Int)] }) := by
    unfold readAtLeast
    rw [if_neg (by omega), if_neg (by omega), if_neg (by omega)]
    simp only [List.length_cons]
    rw [readAtLeastLoop, if_pos (by omega), Int.sub_zero, hread]
    simp only [if_neg hne, Int.add_zero, Int.zero_add, hst]
    rw [readAtLeastLoop, if_neg (by omega)]
  have hload : loadByte (splice buf 0 ((DONE_CMD :: rest).take m)) 0 = .ok DONE_CMD := by
    obtain ⟨k, rfl⟩ : ∃ k, m = k + 1 := ⟨m - 1, by omega⟩
    unfold loadByte splice
    rw [if_pos ⟨by omega, by rw [List.length_append]; simp; omega⟩]
    simp
  unfold receive readNextCmd RcvConn.fresh
  simp only [Int.sub_zero]
  rw [hloop]
  simp only []
  rw [if_neg (by omega), hload]
  simp only [if_true]
  unfold processDone
  rw [if_pos (by simp only []; omega)]

/-! ### Where the property fails -/

/-- A toy checksum for the examples. -/
def xorCrc (a : Int) (b : UInt8) : Int := (a + b.toNat) % 1000

/-- Header of an empty file with a name of 300 bytes, then DONE. -/
def longNameStream : Bytes :=
  [0x4C, 0] ++ leBytes 2 311 ++ headerBytes 30 { fileName := List.replicate 300 97, seqId := 1 } ++
    [0x44, 0, 1, 0] ++ List.replicate 252 0

/-- Disagreement with the code: a block header longer than 256 bytes is parsed
differently when the first read ends after 256 bytes.  Read at once, the file is
received; otherwise the missing part of the header is stored in the wrong place
(ReceiverThread.cpp:434), what the buffer held before takes its place, and a
file with another name and another sequence number is created. -/
theorem C34_violated_long_name :
    receive (fun _ => 9999) xorCrc [] 5 (.fresh (List.replicate 8192 0) longNameStream 30 false) =
      .ok ([.block { fileName := List.replicate 300 97, seqId := 1 } [] true], .done 0 1 (some 0)) ∧
    receive (fun _ => 255) xorCrc [] 5 (.fresh (List.replicate 8192 0) longNameStream 30 false) =
      .ok ([.block { fileName := List.replicate 250 97 ++ List.replicate 50 0, seqId := 0 } [] true], .finish ePROTOCOL_ERROR) := by
  constructor <;> decide +kernel

/-- Settings with a transfer id of 300 bytes, then DONE. -/
def longIdStream : Bytes :=
  [0x53, 30, 1, 1] ++ strBytes (List.replicate 300 97) ++ [0] ++ [0x44, 0, 0, 0] ++ List.replicate 252 0

/-- Disagreement with the code: settings are decoded from the buffer without
making sure that they have arrived, so that with a long transfer id the bytes
after the first read are what the buffer held before: the same connection is
accepted or aborted for a wrong id. -/
theorem C34_violated_long_id :
    receive (fun _ => 9999) xorCrc (List.replicate 300 97) 5
        (.fresh (List.replicate 8192 0) longIdStream 30 false) =
      .ok ([.settings { readTimeoutMillis := 1, writeTimeoutMillis := 1, transferId := List.replicate 300 97 }],
        .done 0 0 (some 0)) ∧
    receive (fun _ => 255) xorCrc (List.replicate 300 97) 5
        (.fresh (List.replicate 8192 0) longIdStream 30 false) =
      .ok ([], .abort eID_MISMATCH) := by
  constructor <;> decide +kernel

/-- Disagreement with the code: whether bytes behind a DONE are noticed depends on
whether they arrive with it. -/
theorem C34_violated_behind_done :
    receive (fun _ => 9999) xorCrc [] 5 (.fresh (List.replicate 8192 0) ([0x44, 0, 0, 0] ++ List.replicate 253 0) 30 false) =
      .ok ([], .finish ePROTOCOL_ERROR) ∧
    receive (fun _ => 255) xorCrc [] 5 (.fresh (List.replicate 8192 0) ([0x44, 0, 0, 0] ++ List.replicate 253 0) 30 false) =
      .ok ([], .done 0 0 (some 0)) := by
  constructor <;> decide +kernel

/-- `m` SIZE commands of nine bytes each. -/
def sizeFlood (m : Nat) : Bytes :=
  (List.replicate m [(0x5A : UInt8), 0x80, 0x80, 0x80, 0x80, 0x80, 0x80, 0x80, 0x00]).flatten

theorem flood_crashes (frag : List Int → Nat) (crc : Int → UInt8 → Int) (id pad : Bytes) (hpad : 256 ≤ pad.length) :
    ∀ (m fuel : Nat) (c : RcvConn), m < fuel → 0 ≤ c.off → 0 ≤ c.numRead → c.off + c.numRead ≤ c.buf.length →
      sizeFlood m ++ pad = seg c.buf c.off (c.off + c.numRead) ++ c.net.rest →
      c.buf.length < c.off + 9 * m + 256 → receive frag crc id fuel c = .error .check := by
  intro m
  induction m with
  | zero =>
    intro fuel c hfu h0 hn hfit _ hoff
    obtain ⟨fuel, rfl⟩ : ∃ k, fuel = k + 1 := ⟨fuel - 1, by omega⟩
    rw [receive, readNextCmd, readAtLeast, if_neg (by omega), if_neg (by decide), if_pos (by unfold kMinBufLength; omega)]
  | succ m ih =>
    intro fuel c hfu h0 hn hfit hdata hoff
    obtain ⟨fuel, rfl⟩ : ∃ k, fuel = k + 1 := ⟨fuel - 1, by omega⟩
    by_cases hroom : c.buf.length < c.off + 256
    · rw [receive, readNextCmd, readAtLeast, if_neg (by omega), if_neg (by decide), if_pos (by unfold kMinBufLength; omega)]
    obtain ⟨buf', n, net', e, hbl, h1, h2, h3, h4⟩ := readAtLeast_spec frag c.off (c.buf.length - c.off) kMinBufLength
      c.buf c.numRead c.net h0 (by simp [kMinBufLength]) (by simp [kMinBufLength]; omega) hn (by omega) (by omega)
    generalize hS : sizeFlood (m + 1) ++ pad = S at hdata
    have hs : S = seg buf' c.off (c.off + n) ++ net'.rest := by rw [h3, hdata]
    have hb' : c.off + n ≤ buf'.length := by omega
    have hlen := seg_stream_length h0 (by omega) hb' hs
    have hS' : S = [(0x5A : UInt8), 0x80, 0x80, 0x80, 0x80, 0x80, 0x80, 0x80, 0x00] ++ (sizeFlood m ++ pad) := by
      rw [← hS]; unfold sizeFlood; rw [List.replicate_succ, List.flatten_cons, List.append_assoc]
    have hSl : 256 ≤ S.length := by rw [hS']; simp only [List.length_append]; omega
    have hk : kMinBufLength = 256 := rfl
    have hn256 : 256 ≤ n := by
      rcases h4 with h4 | h4
      · omega
      · rw [h4] at hlen; simp only [List.length_nil] at hlen; omega
    obtain ⟨cmd, s', hc, hs'⟩ := loadByte_seg h0 (by omega) hb' hs
    have hcmd : cmd = SIZE_CMD := by
      rw [hS'] at hs'; simp only [List.cons_append, List.cons.injEq] at hs'; exact hs'.1.symm
    have hw := withRange_stream decodeInt64C h0 hb' hs 1 11 (by omega) (by omega)
    have hdec : decodeInt64C ((S.take 11).drop 1) = (some 0, ((S.take 11).drop 1).drop 8) := by
      rw [hS', List.take_append]
      simp only [List.length_cons, List.length_nil, List.drop_append]
      generalize ((sizeFlood m ++ pad).take (11 - (0+1+1+1+1+1+1+1+1+1))) = y
      simp only [List.take_succ_cons, List.take_nil, List.drop_succ_cons, List.drop_zero, List.length_cons, List.length_nil, List.cons_append, List.nil_append, List.drop_nil]
      rfl
    rw [receive, readNextCmd, e]
    simp only
    rw [if_neg (by omega), hc]
    simp only
    rw [hcmd, if_neg (by decide), if_neg (by decide), if_neg (by decide), if_pos rfl]
    unfold processSize decodeSize
    simp only
    have e1 : c.off + ((1 : Nat) : Int) = c.off + 1 := rfl
    have e2 : c.off + ((11 : Nat) : Int) = c.off + kMaxSize := rfl
    rw [e1, e2, hdec] at hw
    rw [hw]
    simp only
    have hl11 : (((S.take 11).drop 1).drop 8).length = 2 := by
      simp only [List.length_drop, List.length_take]; omega
    rw [hl11]
    rw [ih fuel _ (by omega) (by simp only; omega) (by simp only; omega) (by simp only; omega) ?_ (by simp only; omega)]
    simp only
    have := seg_rest h0 hb' hs 9 (by omega)
    have hd : S.drop 9 = sizeFlood m ++ pad := by rw [hS']; rfl
    rw [← hd, ← this]
    congr 2 <;> omega

/-- Disagreement with the code: SIZE commands move through the buffer without
ever going back to its start; when fewer than 256 bytes are left the receiver
fails a check and the whole process dies.  This happens however the network
splits the bytes; the sender does not even have to know the transfer id. -/
theorem C34_violated_size_flood (frag : List Int → Nat) (crc : Int → UInt8 → Int) (id buf : Bytes) (ver : Int)
    (footer : Bool) (fuel : Nat) (hfu : buf.length < fuel) (pad : Bytes) (hpad : 256 ≤ pad.length) :
    receive frag crc id fuel (.fresh buf (sizeFlood buf.length ++ pad) ver footer) = .error .check := by
  refine flood_crashes frag crc id pad hpad buf.length fuel _ hfu ?_ ?_ ?_ ?_ ?_
  · simp [RcvConn.fresh]
  · simp [RcvConn.fresh]
  · simp [RcvConn.fresh]
  · simp only [RcvConn.fresh]; rw [seg_empty _ _ _ (by omega)]; rfl
  · simp only [RcvConn.fresh]; omega

/-- A file of 3 bytes with a checksum, then DONE; used to show that the theorems above say something. -/
def goodStream : Bytes :=
  [0x53, 30, 1, 1] ++ strBytes [120] ++ [1] ++ [0x5A, 3] ++
  [0x4C, 0] ++ leBytes 2 11 ++ headerBytes 30 { fileName := [97], seqId := 1, dataSize := 3, fileSize := 3 } ++
  [1, 2, 3] ++ [0x46, 12] ++ [0x44, 0, 1, 3] ++ List.replicate 252 0

example : specRun xorCrc [120] 9 30 false goodStream 0 =
    some ([.settings { readTimeoutMillis := 1, writeTimeoutMillis := 1, transferId := [120], enableChecksum := true },
      .size 3, .block { fileName := [97], seqId := 1, dataSize := 3, fileSize := 3 } [1, 2, 3] true,
      .verified { fileName := [97], seqId := 1, dataSize := 3, fileSize := 3 }], .done 0 1 (some 3)) := by
  decide +kernel

end Wdt
