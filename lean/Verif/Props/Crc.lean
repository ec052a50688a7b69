import Verif.Lemmas.Crc

/-!
# C109: with checksums, damage to the data of a block is noticed

The checksum is the CRC of `Model/Crc.lean`; the streams are those of
`Model/SenderStream.lean` and `Model/ReceiverStream.lean`.
-/

namespace Wdt

/-- The data of a block as the bits that are damaged on the way: damage within 32 consecutive bits. -/
def DamagedWithin32 (data data' : Bytes) : Prop :=
  ∃ u v v' w : List Bool, data.flatMap byteBits = u ++ v ++ w ∧ data'.flatMap byteBits = u ++ v' ++ w ∧
    v.length = v'.length ∧ v.length ≤ 32 ∧ v ≠ v'

/-- An odd number of bits is damaged. -/
def DamagedOdd (data data' : Bytes) : Prop :=
  data.length = data'.length ∧
    (((data.flatMap byteBits).zip (data'.flatMap byteBits)).filter (fun p => p.1 != p.2)).length % 2 = 1

theorem byteBits_length (b : UInt8) : (byteBits b).length = 8 := by simp [byteBits]

theorem bits_length (data : Bytes) : (data.flatMap byteBits).length = 8 * data.length := by
  induction data with
  | nil => rfl
  | cons b data ih =>
    rw [List.flatMap_cons, List.length_append, ih, byteBits_length, List.length_cons]; omega

theorem parity_diff : ∀ (a b : List Bool), a.length = b.length →
    xor (parity a) (parity b) = decide (((a.zip b).filter (fun p => p.1 != p.2)).length % 2 = 1)
  | [], [], _ => rfl
  | x :: a, y :: b, h => by
    have ih := parity_diff a b (by simpa using h)
    have e : xor (parity (x :: a)) (parity (y :: b)) = xor (xor x y) (xor (parity a) (parity b)) := by
      show xor (xor x (parity a)) (xor y (parity b)) = _
      cases x <;> cases y <;> cases parity a <;> cases parity b <;> rfl
    rw [e, ih, List.zip_cons_cons]
    generalize hn : ((a.zip b).filter (fun p => p.1 != p.2)).length = n
    have hc : ∀ m : Nat, decide ((m + 1) % 2 = 1) = !decide (m % 2 = 1) := by
      intro m
      by_cases hm : m % 2 = 1
      · rw [decide_eq_true hm, decide_eq_false (by omega)]; rfl
      · rw [decide_eq_false hm, decide_eq_true (by omega)]; rfl
    cases x <;> cases y <;> simp [List.filter_cons, hn, hc]

theorem fold_zero (data : Bytes) : data.foldl crc32c 0 = (crcBytes 0#32 data).toInt := by
  have := crc32c_fold data 0#32
  simpa using this

/-- **C109**, the function: damage within 32 consecutive bits changes the checksum. -/
theorem C109_burst (data data' : Bytes) (h : DamagedWithin32 data data') :
    data.length = data'.length ∧ data'.foldl crc32c 0 ≠ data.foldl crc32c 0 := by
  obtain ⟨u, v, v', w, e, e', hl, h32, hne⟩ := h
  constructor
  · have h1 := bits_length data
    have h2 := bits_length data'
    rw [e] at h1
    rw [e'] at h2
    simp only [List.length_append] at h1 h2
    omega
  · intro h
    rw [fold_zero, fold_zero] at h
    have := BitVec.toInt_inj.mp h
    unfold crcBytes at this
    rw [e, e'] at this
    exact hne (crcBits_burst u v' v w 0#32 hl.symm (by omega) this).symm

/-- **C109**, the function: damage to an odd number of bits, wherever they are, changes the checksum. -/
theorem C109_odd (data data' : Bytes) (h : DamagedOdd data data') :
    data'.foldl crc32c 0 ≠ data.foldl crc32c 0 := by
  obtain ⟨hl, ho⟩ := h
  intro h
  rw [fold_zero, fold_zero] at h
  have := BitVec.toInt_inj.mp h
  have hp := congrArg (fun s => parity (regBits s)) this
  simp only [crcBytes, parity_crcBits] at hp
  have hd := parity_diff (data.flatMap byteBits) (data'.flatMap byteBits) (by rw [bits_length, bits_length, hl])
  rw [decide_eq_true ho] at hd
  revert hp hd
  have h0 : parity (regBits 0#32) = false := by decide
  rw [h0]
  cases parity (data.flatMap byteBits) <;> cases parity (data'.flatMap byteBits) <;> simp

/-- **C109**, the function: the buffers in which sender and receiver meet the data do not matter. -/
theorem C109_piecewise (x : Int) (pieces : List Bytes) :
    pieces.foldl (fun c p => p.foldl crc32c c) x = pieces.flatten.foldl crc32c x := by
  induction pieces generalizing x with
  | nil => rfl
  | cons p ps ih => rw [List.foldl_cons, ih, List.flatten_cons, List.foldl_append]

/-- The standard check value of CRC-32C, `0xE3069283` for "123456789": start value and result
complemented there. -/
example : ~~~ crcBytes 0xFFFFFFFF#32 [49, 50, 51, 52, 53, 54, 55, 56, 57] = 0xE3069283#32 := by decide +kernel

/-- Non-vacuity: a byte replaced, three bits damaged far from each other. -/
example : DamagedWithin32 [1, 2, 3] [1, 9, 3] ∧ DamagedOdd [1, 2, 3, 4, 5, 6] [0, 2, 3, 4, 5, 7 + 8] := by
  refine ⟨⟨byteBits 1, byteBits 2, byteBits 9, byteBits 3, ?_, ?_, ?_, ?_, ?_⟩, ?_, ?_⟩ <;> decide

/-! ### On the way from a sender thread to a receiver thread -/

/-- A block whose data is damaged, as the receiver thread parses it. -/
theorem specCmd_damaged (crc : Int → UInt8 → Int) (hcrc : ∀ x b, int32Min ≤ crc x b ∧ crc x b ≤ int32Max)
    (id : Bytes) (ver hver : Int) (hv : hver ≥ 13 ↔ ver ≥ 13)
    (status : UInt8) (b : BlockDetails) (hb : b.WF) (hn : b.fileName.length ≤ 204) (data data' : Bytes)
    (hd : (data.length : Int) = b.dataSize) (hl : data'.length = data.length)
    (hne : data'.foldl crc 0 ≠ data.foldl crc 0)
    (hdel : b.allocationStatus = TO_BE_DELETED → b.fileSize = 0 ∧ b.dataSize = 0)
    (rest : Bytes) (hr : 256 ≤ rest.length) (slack : Nat) :
    specCmd crc id ver true (([FILE_CMD, status] ++ leBytes 2 (4 + (headerBytes hver b).length) ++ headerBytes hver b) ++
        data' ++ (FOOTER_CMD :: encodeVarU64Str (zigzag (data.foldl crc 0)) ++ rest)) slack =
      ([.block (b.carried ver) data' true], .stop (.reconnect eCHECKSUM_MISMATCH)) := by
  obtain ⟨q1, q2⟩ := headerBytes_length hver b hn
  have ph := parses_headerDec ver hver hv b hb
  have h2 := leBytes_length 2 (4 + ((headerBytes hver b).length : Int))
  have hle := leNat_leBytes 2 (4 + ((headerBytes hver b).length : Int)) (by omega) (by omega)
  generalize hH : headerBytes hver b = H at *
  generalize hLe : leBytes 2 (4 + (H.length : Int)) = L at *
  generalize hF : FOOTER_CMD :: encodeVarU64Str (zigzag (data.foldl crc 0)) = F
  have hS : ([FILE_CMD, status] ++ L ++ H) ++ data' ++ (F ++ rest) = FILE_CMD :: status :: (L ++ (H ++ (data' ++ (F ++ rest)))) := by
    simp
  rw [hS]
  unfold specCmd
  rw [if_neg (by simp only [List.length_cons, List.length_append]; omega), if_neg (by simp [FILE_CMD]), if_pos (show List.head? _ = some _ from rfl)]
  unfold specFile
  have hi : int16At (FILE_CMD :: status :: (L ++ (H ++ (data' ++ (F ++ rest))))) 2 = 4 + H.length := by
    unfold int16At
    simp only [List.drop_succ_cons, List.drop_zero]
    rw [List.take_left' h2, if_pos (by omega), hle]
  have hdrop : (FILE_CMD :: status :: (L ++ (H ++ (data' ++ (F ++ rest))))).drop 4 = H ++ (data' ++ (F ++ rest)) := by
    simp only [List.drop_succ_cons]
    rw [List.drop_left' h2]
  rw [hi, if_neg (by omega), if_neg (by omega), hdrop, ph]
  have hcd : (b.carried ver).dataSize = b.dataSize := rfl
  have hcf : (b.carried ver).fileSize = b.fileSize := rfl
  simp only [hcd, hcf]
  rw [if_neg (by simp only [List.length_cons, List.length_append]; omega), if_neg ?_,
    if_neg (by simp only [List.length_append]; omega)]
  · have ht : b.dataSize.toNat = data'.length := by omega
    rw [ht, List.take_left' rfl, List.drop_left' rfl, if_pos trivial]
    subst hF
    unfold specFooter
    have q := encodeVarU64Str_length_le (zigzag (data.foldl crc 0))
    rw [if_neg (by simp only [List.length_append]; omega), if_neg (by simp [FOOTER_CMD])]
    have hrange : int32Min ≤ data.foldl crc 0 ∧ data.foldl crc 0 ≤ int32Max := by
      rcases List.eq_nil_or_concat data with h | ⟨d, x, h⟩
      · rw [h, List.foldl_nil]; decide
      · rw [h, List.concat_eq_append, List.foldl_append]; exact hcrc _ _
    have pz := parses_decodeInt32 (data.foldl crc 0) hrange.1 hrange.2
    generalize encodeVarU64Str (zigzag (data.foldl crc 0)) = Z at *
    have w1 := window [FOOTER_CMD] Z rest 11 (by simp only [List.length_singleton]; omega)
    have hS : FOOTER_CMD :: Z ++ rest = [FOOTER_CMD] ++ (Z ++ rest) := rfl
    rw [hS, show (1 : Nat) = [FOOTER_CMD].length from rfl, w1, pz]
    simp only [ne_eq, hne, not_false_eq_true, if_true]
  · rintro ⟨h1, h2⟩
    have h3 : b.allocationStatus = TO_BE_DELETED := by
      unfold BlockDetails.carried at h1
      simp only at h1
      split at h1
      · exact h1
      · exact absurd h1 (by decide)
    have := hdel h3
    omega

theorem sendItems_damaged (crc : Int → UInt8 → Int) (hcrc : ∀ x b, int32Min ≤ crc x b ∧ crc x b ≤ int32Max)
    (id : Bytes) (ver hver : Int) (hv : hver ≥ 13 ↔ ver ≥ 13) (hbuf : Bytes)
    (hhb : (hbuf.length : Int) = kMaxHeader) (status : UInt8) (n total : Int) (hn : NN n) (ht : NN total)
    (bst : UInt8) (b : BlockDetails) (data : Bytes) (hbwf : (SItem.block bst b data).WF)
    (post : List SItem) (hpost : ∀ i ∈ post, i.WF) (hpsz : sizeCount post ≤ 200) :
    ∀ (pre : List SItem) (buf : Bytes), 8192 ≤ buf.length → (∀ i ∈ pre, i.WF) → sizeCount pre ≤ 200 →
      ∃ A B, sendItems ver hver crc true hbuf status n total (pre ++ .block bst b data :: post) buf = .ok (A ++ data ++ B) ∧
        256 ≤ B.length ∧
        ∀ (data' : Bytes) (slack fuel : Nat), data'.length = data.length → data'.foldl crc 0 ≠ data.foldl crc 0 →
          slack + 11 * sizeCount pre ≤ 3000 → pre.length < fuel →
          specRun crc id fuel ver true (A ++ data' ++ B) slack =
            some (pre.flatMap (SItem.obs ver true) ++ [.block (b.carried ver) data' true], .reconnect eCHECKSUM_MISMATCH) := by
  have hmsg : ∀ st b data, (SItem.block st b data).WF →
      sendBlockMsg hver crc true st b data hbuf = .ok (blockBytes hver crc true st b data) := by
    intro st b data hi
    obtain ⟨h1, h2, h3, h4⟩ := hi
    have hrange : int32Min ≤ data.foldl crc 0 ∧ data.foldl crc 0 ≤ int32Max := by
      rcases List.eq_nil_or_concat data with h | ⟨d, x, h⟩
      · rw [h, List.foldl_nil]; decide
      · rw [h, List.concat_eq_append, List.foldl_append]; exact hcrc _ _
    unfold sendBlockMsg blockBytes
    rw [sendHeaderMsg_eq hver st b h1 h2 hbuf hhb, sendFooterMsg_eq _ hrange hbuf hhb]
    simp
  intro pre
  induction pre with
  | nil =>
    intro buf hb _ _
    obtain ⟨s, es, hs, _⟩ := sendItems_spec crc hcrc id ver hver hv true hbuf hhb status n total hn ht
      post buf 0 (post.length + 1) hb hpost (by omega) hpsz (by omega)
    refine ⟨[FILE_CMD, bst] ++ leBytes 2 (4 + (headerBytes hver b).length) ++ headerBytes hver b,
      FOOTER_CMD :: encodeVarU64Str (zigzag (data.foldl crc 0)) ++ s, ?_, ?_, ?_⟩
    · rw [List.nil_append, sendItems, hmsg bst b data hbwf]
      simp only [es]
      unfold blockBytes
      simp
    · simp only [List.length_append, List.length_cons]; omega
    · intro data' slack fuel hl hne _ hfu
      obtain ⟨fuel, rfl⟩ : ∃ k, fuel = k + 1 := ⟨fuel - 1, by omega⟩
      obtain ⟨h1, h2, h3, h4⟩ := hbwf
      rw [specRun, specCmd_damaged crc hcrc id ver hver hv bst b h1 h2 data data' h3 hl hne h4 s hs slack]
      rfl
  | cons i pre ih =>
    intro buf hb hwf hsc
    have hi := hwf i (by simp)
    have hw' : ∀ j ∈ pre, j.WF := fun j hj => hwf j (by simp [hj])
    cases i with
    | size t =>
      have hcnt : sizeCount (.size t :: pre) = sizeCount pre + 1 := by simp [sizeCount]
      obtain ⟨buf', e, hbl⟩ := sendSizeMsg_eq t hi buf hb
      have hq := nnBytes_length_le t
      obtain ⟨A, B, es, hB, hr⟩ := ih buf' (by omega) hw' (by omega)
      refine ⟨(SIZE_CMD :: nnBytes t) ++ A, B, ?_, hB, ?_⟩
      · rw [List.cons_append, sendItems, e]; simp only [es, List.append_assoc]
      · intro data' slack fuel hl hne hsl hfu
        obtain ⟨fuel, rfl⟩ : ∃ k, fuel = k + 1 := ⟨fuel - 1, by omega⟩
        simp only [List.length_cons] at hfu
        have hs : 256 ≤ (A ++ data' ++ B).length := by rw [List.length_append]; omega
        have e2 : (SIZE_CMD :: nnBytes t) ++ A ++ data' ++ B = SIZE_CMD :: (nnBytes t ++ (A ++ data' ++ B)) := by simp
        rw [e2, specRun, specCmd_size crc id ver true t hi (A ++ data' ++ B) (by omega) slack]
        simp only
        rw [if_neg (by omega), hr data' _ fuel hl hne (by omega) (by omega)]
        rfl
    | block st b' data0 =>
      have hcnt : sizeCount (.block st b' data0 :: pre) = sizeCount pre := by simp [sizeCount]
      obtain ⟨A, B, es, hB, hr⟩ := ih buf hb hw' (by omega)
      refine ⟨blockBytes hver crc true st b' data0 ++ A, B, ?_, hB, ?_⟩
      · rw [List.cons_append, sendItems, hmsg st b' data0 hi]; simp only [es, List.append_assoc]
      · intro data' slack fuel hl hne hsl hfu
        obtain ⟨fuel, rfl⟩ : ∃ k, fuel = k + 1 := ⟨fuel - 1, by omega⟩
        simp only [List.length_cons] at hfu
        obtain ⟨h1, h2, h3, h4⟩ := hi
        have hs : 256 ≤ (A ++ data' ++ B).length := by rw [List.length_append]; omega
        obtain ⟨sl, hsl', hk⟩ := specCmd_block crc hcrc id ver hver hv true st b' h1 h2 data0 h3 h4 (A ++ data' ++ B) hs slack
        have e2 : blockBytes hver crc true st b' data0 ++ A ++ data' ++ B =
            blockBytes hver crc true st b' data0 ++ (A ++ data' ++ B) := by simp
        rw [e2, specRun, hk]
        simp only
        rw [if_neg (by omega), hr data' _ fuel hl hne (by omega) (by omega)]
        rfl

/-- **C109** (partial: damage to the data of one block, and the restrictions of
`C34_delivery_partial`).  A sender thread with checksums on sends any items, then a
block, then any items.  On the way the data of that block is damaged within 32
consecutive bits or in an odd number of bits.  However the network splits the bytes, the
receiver thread takes what was sent before as it is, writes the damaged data, does not confirm the
block, and gives up the connection with CHECKSUM_MISMATCH (the sender then sends the block again). -/
theorem C109_damage_partial (frag : List Int → Nat)
    (ver hver rver : Int) (hver1 : 12 ≤ ver ∧ ver ≤ int32Max) (hv : hver ≥ 13 ↔ ver ≥ 13)
    (hacc : receiverOnSettings ver rver = (ver, .accept))
    (st : Settings) (hst : st.WF) (hid : st.transferId.length ≤ 200) (hch : st.sendFileChunks = false)
    (hfoot : st.enableChecksum = true)
    (pre post : List SItem) (bst : UInt8) (b : BlockDetails) (data : Bytes)
    (hit : ∀ i ∈ pre ++ .block bst b data :: post, i.WF) (hsz : sizeCount (pre ++ .block bst b data :: post) ≤ 200)
    (status : UInt8) (n total : Int) (hn : NN n) (ht : NN total)
    (buf hbuf rbuf : Bytes) (hb : 8192 ≤ buf.length) (hhb : (hbuf.length : Int) = kMaxHeader)
    (hrb : 8192 ≤ rbuf.length) (footer0 : Bool) (fuel : Nat) (hfu : pre.length + 1 < fuel) :
    ∃ A B, sendStream ver hver crc32c st hbuf status n total (pre ++ .block bst b data :: post) buf =
        .ok (A ++ data ++ B) ∧
      ∀ data', DamagedWithin32 data data' ∨ DamagedOdd data data' →
        receive frag crc32c st.transferId fuel (.fresh rbuf (A ++ data' ++ B) rver footer0) =
          .ok (.settings (st.carried ver) :: pre.flatMap (SItem.obs ver true) ++ [.block (b.carried ver) data' true],
            .reconnect eCHECKSUM_MISMATCH) := by
  have hle : int32Max ≤ int64Max := by decide
  obtain ⟨buf', e, hbl⟩ := sendSettingsMsg_eq ver ⟨by omega, by omega⟩ st hst hid hch buf hb
  obtain ⟨q1, q2⟩ := settingsBytes_length ver st hid
  obtain ⟨fuel, rfl⟩ : ∃ k, fuel = k + 1 := ⟨fuel - 1, by omega⟩
  have hcnt : sizeCount (pre ++ .block bst b data :: post) = sizeCount pre + sizeCount post := by
    simp [sizeCount]
  obtain ⟨A, B, es, hB, hr⟩ := sendItems_damaged crc32c crc32c_range st.transferId ver hver hv hbuf hhb status n total hn ht
    bst b data (hit _ (by simp)) post (fun i hi => hit i (by simp [hi])) (by omega)
    pre buf' (by omega) (fun i hi => hit i (by simp [hi])) (by omega)
  refine ⟨(SETTINGS_CMD :: settingsBytes ver st) ++ A, B, ?_, ?_⟩
  · rw [sendStream, e]; simp only [hfoot, es, List.append_assoc]
  intro data' hdam
  have hdd : data'.length = data.length ∧ data'.foldl crc32c 0 ≠ data.foldl crc32c 0 := by
    rcases hdam with h | h
    · exact ⟨(C109_burst _ _ h).1.symm, (C109_burst _ _ h).2⟩
    · exact ⟨h.1.symm, C109_odd _ _ h⟩
  apply C34_parse_partial frag crc32c st.transferId rbuf _ rver footer0 hrb
  have hck : (st.carried ver).enableChecksum = true := by
    unfold Settings.carried
    split
    · exact hfoot
    · omega
  have hs : 256 ≤ (A ++ data' ++ B).length := by rw [List.length_append]; omega
  have e2 : (SETTINGS_CMD :: settingsBytes ver st) ++ A ++ data' ++ B =
      SETTINGS_CMD :: (settingsBytes ver st ++ (A ++ data' ++ B)) := by simp
  rw [e2, specRun, specCmd_settings crc32c ver rver ⟨by omega, hver1.2⟩ hacc st hst hid hch footer0 (A ++ data' ++ B) (by omega)]
  simp only [hck]
  rw [if_neg (by omega), hr data' _ fuel hdd.1 hdd.2 (by omega) (by omega)]
  rfl

/-- Settings of the small transfers below. -/
def crcSettings : Settings :=
  { readTimeoutMillis := 5000, writeTimeoutMillis := 5000, transferId := [120], enableChecksum := true }

theorem crcSettings_wf : crcSettings.WF := by unfold Settings.WF; decide

/-- A small transfer: a size, the two bytes at `offset` of a file of ten bytes, an empty file. -/
def crcItems (offset : Int) : List SItem :=
  [.size 2, .block 0 { fileName := [97], seqId := 1, dataSize := 2, offset := offset, fileSize := 10 } [7, 8],
    .block 0 { fileName := [98], seqId := 2 } []]

theorem crcItems_wf (offset : Int) (h : offset = 0 ∨ offset = 1) : ∀ i ∈ crcItems offset, i.WF := by
  intro i hi
  simp only [crcItems, List.mem_cons, List.not_mem_nil, or_false] at hi
  rcases hi with rfl | rfl | rfl
  · exact ⟨by decide, by decide⟩
  · rcases h with rfl | rfl <;>
      (refine ⟨?_, by decide, rfl, by decide⟩; unfold BlockDetails.WF; decide)
  · refine ⟨?_, by decide, rfl, by decide⟩
    unfold BlockDetails.WF; decide

/-- The hypotheses are met by the small transfer with one byte of the file damaged. -/
example : ∃ A B, sendStream 30 30 crc32c crcSettings (List.replicate 4150 0) 0 2 2 (crcItems 0) (List.replicate 8192 0) =
      .ok (A ++ [7, 8] ++ B) ∧
    receive (fun _ => 0) crc32c [120] 9 (.fresh (List.replicate 8192 255) (A ++ [7, 9] ++ B) 30 false) =
      .ok ([.settings crcSettings, .size 2,
        .block { fileName := [97], seqId := 1, dataSize := 2, fileSize := 10 } [7, 9] true],
        .reconnect eCHECKSUM_MISMATCH) := by
  obtain ⟨A, B, h1, h2⟩ := C109_damage_partial (fun _ => 0) 30 30 30 ⟨by decide, by decide⟩ Iff.rfl (by decide)
    crcSettings crcSettings_wf (by decide) rfl rfl [.size 2] [.block 0 { fileName := [98], seqId := 2 } []] 0
    { fileName := [97], seqId := 1, dataSize := 2, fileSize := 10 } [7, 8]
    (crcItems_wf 0 (.inl rfl)) (by decide) 0 2 2 (by decide) (by decide)
    (List.replicate 8192 0) (List.replicate 4150 0) (List.replicate 8192 255)
    (by rw [List.length_replicate]; exact Nat.le_refl _) (by rw [List.length_replicate]; rfl)
    (by rw [List.length_replicate]; exact Nat.le_refl _) false 9 (by decide)
  refine ⟨A, B, h1, ?_⟩
  exact h2 [7, 9] (.inl ⟨byteBits 7, byteBits 8, byteBits 9, [], by decide, by decide, by decide, by decide, by decide⟩)

/-- What a byte-for-byte comparison of two streams finds. -/
def streamDiff (a b : Bytes) : List (UInt8 × UInt8) := (a.zip b).filter (fun p => p.1 != p.2)

/-- **C109** does not extend to the header of a block: the checksum covers the data only.  One
bit of what the sender sent is damaged (the offset, 0, becomes 1); the receiver thread
writes the data at the wrong place, confirms the block and ends the session without an error. -/
theorem C109_violated_header : ∃ s s', s.length = s'.length ∧ streamDiff s s' = [(0, 1)] ∧
    sendStream 30 30 crc32c crcSettings (List.replicate 4150 0) 0 2 2 (crcItems 0) (List.replicate 8192 0) = .ok s ∧
    receive (fun _ => 0) crc32c [120] 9 (.fresh (List.replicate 8192 255) s' 30 false) =
      .ok ([.settings crcSettings, .size 2,
        .block { fileName := [97], seqId := 1, dataSize := 2, offset := 1, fileSize := 10 } [7, 8] true,
        .verified { fileName := [97], seqId := 1, dataSize := 2, offset := 1, fileSize := 10 },
        .block { fileName := [98], seqId := 2 } [] true, .verified { fileName := [98], seqId := 2 }],
        .done 0 2 (some 2)) := by
  have hd := fun o ho => C34_delivery_partial (fun _ => 0) crc32c crc32c_range 30 30 30 ⟨by decide, by decide⟩ Iff.rfl
    (by decide) crcSettings crcSettings_wf (by decide) rfl (.inl (by decide)) (crcItems o) (crcItems_wf o ho)
    (show sizeCount (crcItems o) ≤ 200 by simp [sizeCount, crcItems]) 0 2 2 (by decide) (by decide)
    (List.replicate 8192 0) (List.replicate 4150 0) (List.replicate 8192 255)
    (by rw [List.length_replicate]; exact Nat.le_refl _) (by rw [List.length_replicate]; rfl)
    (by rw [List.length_replicate]; exact Nat.le_refl _) false 9 (show (crcItems o).length + 1 < 9 by simp [crcItems])
  obtain ⟨s, h1, _⟩ := hd 0 (.inl rfl)
  obtain ⟨s', h2, h3⟩ := hd 1 (.inr rfl)
  have hc : (match sendStream 30 30 crc32c crcSettings (List.replicate 4150 0) 0 2 2 (crcItems 0) (List.replicate 8192 0),
      sendStream 30 30 crc32c crcSettings (List.replicate 4150 0) 0 2 2 (crcItems 1) (List.replicate 8192 0) with
      | .ok s, .ok s' => decide (s.length = s'.length ∧ streamDiff s s' = [(0, 1)])
      | _, _ => false) = true := by decide +kernel
  rw [h1, h2] at hc
  simp only [decide_eq_true_eq] at hc
  exact ⟨s, s', hc.1, hc.2, h1, h3⟩

/-- The bound of `C109_burst` is sharp: damage to 33 consecutive bits (an even number of them) can go unnoticed. -/
theorem C109_limit : ([0x80, 0x78, 0x3B, 0xF6, 0x82] : Bytes).foldl crc32c 0 = ([0, 0, 0, 0, 0] : Bytes).foldl crc32c 0 := by
  decide +kernel

end Wdt
