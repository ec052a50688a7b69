import Verif.Lemmas.Protocol
import Verif.Model.ChunkExchange
import Mathlib.Tactic.Tauto
/-
C05 - C10, C12: protocol messages and version negotiation.
-/
namespace Wdt

/-! ## C05 Block headers round-trip under every protocol version -/

/-- Specification: what a header means to a receiver speaking version `ver`:
before version 13 there is neither allocation status nor previous seq-id, and
the previous seq-id only travels for size-mismatch statuses. -/
def BlockDetails.carried (ver : Int) (b : BlockDetails) : BlockDetails :=
  { fileName := b.fileName, seqId := b.seqId, fileSize := b.fileSize, offset := b.offset,
    dataSize := b.dataSize,
    allocationStatus := if ver ≥ 13 then b.allocationStatus else NOT_EXISTS,
    prevSeqId := if ver ≥ 13 ∧ (b.allocationStatus = 2 ∨ b.allocationStatus = 3)
                 then b.prevSeqId else 0 }

/-- In-range header fields: non-negative `int64_t`s and one of the five
statuses. -/
def BlockDetails.WF (b : BlockDetails) : Prop :=
  NN b.seqId ∧ NN b.dataSize ∧ NN b.offset ∧ NN b.fileSize ∧ NN b.prevSeqId ∧
  NN b.fileName.length ∧ b.allocationStatus ≤ 4

theorem C05_header_roundtrip (ver : Int) (b : BlockDetails) (hb : b.WF) (max : Int)
    (hm : max ≤ int64Max) (buf buf' : Bytes) (off off' : Int) (h0 : 0 ≤ off) (h1 : off ≤ max)
    (h2 : max ≤ buf.length) (he : encodeHeader ver max b buf off = .ok (true, buf', off'))
    (m : Int) (hm1 : off' ≤ m) (hm2 : m ≤ buf'.length) :
    decodeHeader ver {} buf' off m = .ok (some (b.carried ver), off') := by
  obtain ⟨a1, a2, a3, a4, a5, a6, a7⟩ := hb
  have w := writes_encodeHeader (by omega) hm ver b a1 a2 a3 a4 a5
  obtain ⟨rest, hr, hoff, _, _⟩ := range_after w h0 h1 h2 he m hm1 hm2
  unfold decodeHeader
  rw [hr]
  simp only
  have pf := parses_decodeHeaderFixed {} b a6 a1 a2 a3 a4
  have e13 : HEADER_FLAG_AND_PREV_SEQ_ID_VERSION = 13 := rfl
  have hb : headerBytes ver b ++ rest =
      (strBytes b.fileName ++ (nnBytes b.seqId ++ (nnBytes b.dataSize ++ (nnBytes b.offset ++
        nnBytes b.fileSize)))) ++ ((if ver ≥ HEADER_FLAG_AND_PREV_SEQ_ID_VERSION then
      [UInt8.ofNat b.allocationStatus] ++
      (if b.allocationStatus = EXISTS_TOO_SMALL ∨ b.allocationStatus = EXISTS_TOO_LARGE
       then nnBytes b.prevSeqId else []) else []) ++ rest) := by
    unfold headerBytes; simp
  rw [hb, pf]
  simp only
  by_cases hv : ver ≥ 13
  · have hv' : ver ≥ HEADER_FLAG_AND_PREV_SEQ_ID_VERSION := hv
    have pg := parses_decodeHeaderFlags ({
      fileName := b.fileName, seqId := b.seqId, dataSize := b.dataSize,
      offset := b.offset, fileSize := b.fileSize, allocationStatus := NOT_EXISTS, prevSeqId := 0 } : BlockDetails)
      b.allocationStatus b.prevSeqId (by exact Nat.lt_of_le_of_lt a7 (by decide)) a5
    simp only [if_pos hv']
    rw [if_neg (by simp), pg rest]
    simp only [Except.ok.injEq, Prod.mk.injEq, Option.some.injEq]
    constructor
    · unfold BlockDetails.carried
      simp only [hv, if_true, true_and]
      by_cases hs : b.allocationStatus = EXISTS_TOO_SMALL ∨ b.allocationStatus = EXISTS_TOO_LARGE
      · rw [if_pos hs, if_pos (by simp only [EXISTS_TOO_SMALL, EXISTS_TOO_LARGE] at hs; tauto)]
      · rw [if_neg hs, if_neg (by simp only [EXISTS_TOO_SMALL, EXISTS_TOO_LARGE] at hs; tauto)]
    · rw [hoff]
      unfold headerBytes
      simp only [if_pos hv', List.length_append]
      omega
  · have hv' : ¬ ver ≥ HEADER_FLAG_AND_PREV_SEQ_ID_VERSION := hv
    simp only [if_neg hv', List.nil_append, Except.ok.injEq, Prod.mk.injEq, Option.some.injEq]
    constructor
    · unfold BlockDetails.carried
      simp [hv]
    · rw [hoff]
      unfold headerBytes
      simp only [if_neg hv', List.length_append, List.length_nil]
      omega

/-- Decoding any received bytes as a header never faults, whatever the bytes,
and never moves past the end of the received bytes. -/
theorem C05_decodeHeader_total (ver : Int) (src : Bytes) (off max : Int) (h0 : 0 ≤ off)
    (h1 : off ≤ max) (h2 : max ≤ src.length) :
    ∃ r off', decodeHeader ver {} src off max = .ok (r, off') ∧ off ≤ off' ∧ off' ≤ max := by
  have s1 : ∀ b0, Suffixy (decodeHeaderFixed b0) := fun b0 =>
    suffixy_decodeString.bind fun _ => suffixy_decodeInt64C.bind fun _ =>
    suffixy_decodeInt64C.bind fun _ => suffixy_decodeInt64C.bind fun _ =>
    suffixy_decodeInt64C.bind fun _ => suffixy_pure _
  have s2 : ∀ b0, Suffixy (decodeHeaderFlags b0) := fun b0 =>
    suffixy_decodeByte.bind fun _ => Suffixy.ite
      (suffixy_decodeInt64C.bind fun _ => suffixy_pure _) (suffixy_pure _)
  have hl := seg_length src off max h0 h1 h2
  unfold decodeHeader
  rw [makeByteRange_ok _ _ _ h0 h1 h2]
  simp only
  obtain ⟨p1, hp1⟩ := s1 {} (seg src off max)
  rcases hd : decodeHeaderFixed {} (seg src off max) with ⟨_ | b, br'⟩
  · rw [hd] at hp1
    have := congrArg List.length hp1
    simp only [List.length_append] at this
    exact ⟨_, _, rfl, by omega, by omega⟩
  · rw [hd] at hp1
    have := congrArg List.length hp1
    simp only [List.length_append] at this
    simp only
    split
    · split
      · exact ⟨_, _, rfl, by omega, by omega⟩
      · obtain ⟨p2, hp2⟩ := s2 b br'
        have h3 := congrArg List.length hp2
        simp only [List.length_append] at h3
        exact ⟨_, _, rfl, by omega, by omega⟩
    · exact ⟨_, _, rfl, by omega, by omega⟩

/-- A header that ends before the flags, such as one of an old version, is refused by a version that carries flags, and the
offset stays where it was. -/
theorem C05_no_flags (old ver : Int) (ho : old < 13) (hv : 13 ≤ ver) (b : BlockDetails) (hb : b.WF) (max : Int)
    (hm : max ≤ int64Max) (buf buf' : Bytes) (off off' : Int) (h0 : 0 ≤ off) (h1 : off ≤ max)
    (h2 : max ≤ buf.length) (he : encodeHeader old max b buf off = .ok (true, buf', off')) :
    decodeHeader ver {} buf' off off' = .ok (none, off) := by
  obtain ⟨a1, a2, a3, a4, a5, a6, a7⟩ := hb
  have w := writes_encodeHeader (by omega) hm old b a1 a2 a3 a4 a5
  have hle : off' ≤ buf'.length := by
    by_cases hf : off + (headerBytes old b).length ≤ max
    · have := (w buf off h0 h1 h2).1 hf
      rw [he] at this
      simp only [Except.ok.injEq, Prod.mk.injEq, true_and] at this
      rw [this.1, this.2, splice_length _ _ _ (by omega)]
      omega
    · obtain ⟨b1, o1, h⟩ := (w buf off h0 h1 h2).2 (by omega)
      rw [he] at h
      simp at h
  obtain ⟨rest, hr, hoff, _, hl⟩ := range_after w h0 h1 h2 he off' (Int.le_refl _) hle
  have hrest : rest = [] := by
    have e := makeByteRange_ok buf' off off' h0 (by omega) hle
    rw [e] at hr
    have hs := seg_length buf' off off' h0 (by omega) hle
    simp only [Except.ok.injEq] at hr
    rw [hr, List.length_append] at hs
    exact List.eq_nil_of_length_eq_zero (by omega)
  subst hrest
  unfold decodeHeader
  rw [hr]
  simp only
  have pf := parses_decodeHeaderFixed {} b a6 a1 a2 a3 a4
  have hb : headerBytes old b ++ [] =
      (strBytes b.fileName ++ (nnBytes b.seqId ++ (nnBytes b.dataSize ++ (nnBytes b.offset ++
        nnBytes b.fileSize)))) ++ [] := by
    unfold headerBytes
    rw [if_neg (by show ¬ old ≥ 13; omega)]
    simp
  rw [hb, pf]
  simp only
  rw [if_pos (by show ver ≥ 13; omega)]
  rfl

/-- Case. -/
example : ∃ buf' off', encodeHeader 12 40 { fileName := [97, 47, 98], seqId := 300, fileSize := 7, dataSize := 7 }
      (List.replicate 40 0) 4 = .ok (true, buf', off') ∧ off' = 13 ∧ decodeHeader 30 {} buf' 4 off' = .ok (none, 4) := by
  refine ⟨_, _, rfl, ?_, ?_⟩ <;> decide +kernel

/-- Non-vacuity: a header with a size mismatch in a 40 byte buffer. -/
example : ∃ buf' off', encodeHeader 30 40
    { fileName := [97, 47, 98], seqId := 300, fileSize := 7, offset := 0, dataSize := 7,
      allocationStatus := 3, prevSeqId := 9 } (List.replicate 40 0) 4 = .ok (true, buf', off') ∧
    decodeHeader 30 {} buf' 4 40 = .ok (some
      { fileName := [97, 47, 98], seqId := 300, fileSize := 7, offset := 0, dataSize := 7,
        allocationStatus := 3, prevSeqId := 9 }, off') := by
  refine ⟨_, _, rfl, ?_⟩
  decide +kernel

/-! ## C06 A legal block header always fits the space reserved for it -/

/-- The sender encodes the header at offset 4 (command, status and 16-bit length
come first; SenderThread.cpp:319-337) of an array of `kMaxHeader` bytes.  For a
name of at most PATH_MAX bytes this never fails and never overflows, and the
final offset, which is what is stored in the 16-bit length field, is below
2^15. -/
theorem C06_header_fits (ver : Int) (b : BlockDetails) (hb : b.WF)
    (hname : (b.fileName.length : Int) ≤ PATH_MAX) (buf : Bytes) (hbuf : (buf.length : Int) = kMaxHeader) :
    ∃ buf' off', encodeHeader ver kMaxHeader b buf 4 = .ok (true, buf', off') ∧
      4 < off' ∧ off' ≤ kMaxHeader ∧ off' < 2 ^ 15 := by
  obtain ⟨a1, a2, a3, a4, a5, a6, a7⟩ := hb
  have hk : kMaxHeader = 4150 := rfl
  have hp : PATH_MAX = 4096 := rfl
  have w := writes_encodeHeader (max := kMaxHeader) (by rw [hk]; omega) (by rw [hk]; unfold int64Max; omega)
    ver b a1 a2 a3 a4 a5
  have hs := encodeVarU64Str_length_lt 2 b.fileName.length (by omega) (by omega) (by omega)
  have hlen : (headerBytes ver b).length ≤ 2 + b.fileName.length + 36 + 10 ∧
      1 ≤ (headerBytes ver b).length := by
    have l1 := nnBytes_length_le b.seqId
    have l2 := nnBytes_length_le b.dataSize
    have l3 := nnBytes_length_le b.offset
    have l4 := nnBytes_length_le b.fileSize
    have l5 := nnBytes_length_le b.prevSeqId
    have p1 := nnBytes_length_pos b.seqId
    unfold headerBytes strBytes
    simp only [List.length_append]
    split
    · simp only [List.length_append, List.length_singleton]
      split
      · omega
      · simp only [List.length_nil]; omega
    · simp only [List.length_nil]; omega
  have w' := (w buf 4 (by omega) (by rw [hk]; omega) (by omega)).1 (by omega)
  exact ⟨_, _, w', by omega, by omega, by omega⟩

example : (List.replicate 4150 (0 : UInt8)).length = kMaxHeader := by
  rw [List.length_replicate]; rfl

/-- The space is really needed: one byte less for the name field and a legal
header would not fit (the bound is tight up to 2 bytes). -/
theorem C06_bound_is_tight : ∃ b : BlockDetails, b.WF ∧ (b.fileName.length : Int) = PATH_MAX ∧
    (headerBytes 30 b).length + 4 = 4148 := by
  refine ⟨{ fileName := List.replicate 4096 97, seqId := int64Max, dataSize := int64Max,
            offset := int64Max, fileSize := int64Max, allocationStatus := 3, prevSeqId := int64Max },
    ?_, ?_, ?_⟩
  · unfold BlockDetails.WF
    simp only [List.length_replicate]
    decide
  · simp only [List.length_replicate]; rfl
  · have h9 : (nnBytes int64Max).length = 9 := by decide +kernel
    have h2 : (encodeVarU64Str 4096).length = 2 := by decide +kernel
    have hv : (30 : Int) ≥ HEADER_FLAG_AND_PREV_SEQ_ID_VERSION := by decide
    unfold headerBytes strBytes
    simp only [List.length_append, List.length_replicate, h9, h2, if_pos hv, List.length_singleton,
      EXISTS_TOO_SMALL, true_or, if_true]

/-! ## C07 Checkpoints round-trip and fit their fixed-size message -/

theorem C07_checkpoints_roundtrip (ver : Int) (cs : List Checkpoint) (hcs : ∀ c ∈ cs, c.WF)
    (hlen : cs.length < 2 ^ 64) (max : Int) (hm : max ≤ int64Max) (buf buf' : Bytes) (off off' : Int)
    (h0 : 0 ≤ off) (h1 : off ≤ max) (h2 : max ≤ buf.length)
    (he : encodeCheckpoints ver max cs buf off = .ok (true, buf', off'))
    (m : Int) (hm1 : off' ≤ m) (hm2 : m ≤ buf'.length) :
    decodeCheckpoints ver buf' off m = .ok (some (cs.map (Checkpoint.carried ver)), off') := by
  have w := writes_encodeCheckpoints (by omega) hm ver cs hcs
  refine withRange_roundtrip w ?_ h0 h1 h2 he m hm1 hm2
  unfold checkpointsBytes
  exact (parses_decodeUInt64 _ hlen).bind
    (parses_times _ _ _ _ fun c hc => parses_decodeCheckpoint ver c (hcs c hc))

/-- From version 21 on nothing at all is lost. -/
theorem C07_checkpoints_lossless (ver : Int) (hv : 21 ≤ ver) (c : Checkpoint) (hs : c.hasSeqId = true) :
    c.carried ver = c := by
  unfold Checkpoint.carried
  have : ver ≥ 16 := by omega
  simp [this, hv]
  rw [← hs]

/-- A single (local) checkpoint always fits the fixed length that both sides
compute for the version. -/
theorem C07_local_checkpoint_fits (ver : Int) (c : Checkpoint) (hc : c.WF) (buf : Bytes)
    (hbuf : getMaxLocalCheckpointLength ver ≤ buf.length) :
    ∃ buf' off', encodeCheckpoints ver (getMaxLocalCheckpointLength ver) [c] buf 0 =
      .ok (true, buf', off') ∧ off' ≤ getMaxLocalCheckpointLength ver := by
  have hM : 30 ≤ getMaxLocalCheckpointLength ver ∧ getMaxLocalCheckpointLength ver ≤ 60 := by
    unfold getMaxLocalCheckpointLength; split <;> split <;> omega
  have w := writes_encodeCheckpoints (max := getMaxLocalCheckpointLength ver) (by omega)
    (by unfold int64Max; omega) ver [c] (by simpa using hc)
  have hlen : ((checkpointsBytes ver [c]).length : Int) ≤ getMaxLocalCheckpointLength ver := by
    have l1 := nnBytes_length_le c.port
    have l2 := nnBytes_length_le c.numBlocks
    have l3 := nnBytes_length_le c.lastBlockReceivedBytes
    have l4 := nnBytes_length_le c.lastBlockSeqId
    have l5 := nnBytes_length_le c.lastBlockOffset
    have l6 := encodeVarU64Str_length_le ([c].length)
    unfold checkpointsBytes checkpointBytes getMaxLocalCheckpointLength
    simp only [List.flatMap_cons, List.flatMap_nil, List.length_append, List.length_nil]
    split <;> split <;> simp only [List.length_append, List.length_nil] <;> omega
  have w' := (w buf 0 (by omega) (by omega) (by omega)).1 (by omega)
  exact ⟨_, _, w', by omega⟩

/-- Hostile or damaged checkpoint messages: decoding never faults and stays
inside the message. -/
theorem C07_decodeCheckpoints_total (ver : Int) (src : Bytes) (off max : Int) (h0 : 0 ≤ off)
    (h1 : off ≤ max) (h2 : max ≤ src.length) :
    ∃ r off', decodeCheckpoints ver src off max = .ok (r, off') ∧ off ≤ off' ∧ off' ≤ max := by
  refine withRange_total ?_ src off max h0 h1 h2
  have hseq : ∀ c, Suffixy (decodeCheckpointSeqId ver c) := by
    intro c
    refine suffixy_decodeUInt64.bind fun uv => ?_
    have hk : ∀ c' : Int → Checkpoint, Suffixy (decodeInt64C.bind fun o => Dec.pure (c' o)) :=
      fun c' => suffixy_decodeInt64C.bind fun _ => suffixy_pure _
    intro br
    split
    · cases br with
      | nil => exact hk _ []
      | cons b br' =>
        simp only
        split
        · exact ⟨[b], rfl⟩
        · obtain ⟨p, hp⟩ := hk (fun o => { c with lastBlockSeqId := -1, lastBlockOffset := o, hasSeqId := true }) br'
          exact ⟨b :: p, by rw [List.cons_append, ← hp]⟩
    · exact hk _ br
  refine suffixy_decodeUInt64.bind fun len => suffixy_times _ ?_ len
  unfold decodeCheckpoint
  refine suffixy_decodeInt32C.bind fun _ => suffixy_decodeInt64C.bind fun _ => ?_
  refine Suffixy.bind (Suffixy.ite (suffixy_decodeInt64C.bind fun _ => suffixy_pure _)
    (suffixy_pure _)) fun c => Suffixy.ite (hseq c) (suffixy_pure _)

/-- Interoperability with builds before 27, which send -1 ("no partial block")
as nine 0xff bytes and one 0x01: it is read as -1 and nothing is left over. -/
theorem C07_pre27_minus_one (ver : Int) (hv : 21 ≤ ver) (hv' : ver < 27) (c : Checkpoint) (hc : c.WF)
    (rest : Bytes) :
    decodeCheckpoint ver (nnBytes c.port ++ (nnBytes c.numBlocks ++ (nnBytes c.lastBlockReceivedBytes ++
      (List.replicate 9 0xff ++ [0x01] ++ nnBytes c.lastBlockOffset)))  ++ rest) =
      (some { c with lastBlockSeqId := -1, hasSeqId := true }, rest) := by
  have hff : Parses decodeUInt64 (List.replicate 9 0xff) 18446744073709551615 := by
    intro r
    have : encodeVarU64Str 18446744073709551615 = List.replicate 9 0xff := by decide +kernel
    rw [← this]
    exact parses_decodeUInt64 _ (by decide) r
  have hp : Parses (decodeCheckpoint ver) (nnBytes c.port ++ (nnBytes c.numBlocks ++
      (nnBytes c.lastBlockReceivedBytes ++
      (List.replicate 9 0xff ++ [0x01] ++ nnBytes c.lastBlockOffset))))
      { c with lastBlockSeqId := -1, hasSeqId := true } := by
    unfold decodeCheckpoint
    refine (parses_decodeInt32C c.port hc.1 hc.2.1).bind <| (parses_nn hc.2.2.1).bind ?_
    have h16 : ver ≥ CHECKPOINT_OFFSET_VERSION := by unfold CHECKPOINT_OFFSET_VERSION; omega
    have h21 : ver ≥ CHECKPOINT_SEQ_ID_VERSION := by unfold CHECKPOINT_SEQ_ID_VERSION; omega
    simp only [if_pos h16, if_pos h21]
    refine Parses.bind (a := (⟨c.port, c.numBlocks, 0, 0, c.lastBlockReceivedBytes, false⟩ : Checkpoint))
      ((parses_nn hc.2.2.2.2.2).map _) ?_
    unfold decodeCheckpointSeqId
    rw [List.append_assoc]
    refine hff.bind ?_
    intro r
    have h27 : ver < VARINT_CHANGE := by unfold VARINT_CHANGE; omega
    simp only [h27, true_and, if_true, List.cons_append, List.nil_append, ne_eq, not_true_eq_false,
      if_false]
    exact (parses_nn hc.2.2.2.2.1).map _ r
  exact hp rest

example : (⟨22356, 3, 2, 100, 55, true⟩ : Checkpoint).WF := by
  unfold Checkpoint.WF; decide

/-! ## C08 Transfer settings round-trip -/

/-- What the settings mean to a receiver speaking version `ver`. -/
def Settings.carried (ver : Int) (s : Settings) : Settings :=
  if ver ≥ 12 then s
  else { s with enableChecksum := false, sendFileChunks := false, blockModeDisabled := false,
                enableHeartBeat := false }

/-- In-range settings: timeouts are non-negative `int`s. -/
def Settings.WF (s : Settings) : Prop :=
  0 ≤ s.readTimeoutMillis ∧ s.readTimeoutMillis ≤ int32Max ∧
  0 ≤ s.writeTimeoutMillis ∧ s.writeTimeoutMillis ≤ int32Max ∧ NN s.transferId.length

theorem settingsFlags_bits (s : Settings) :
    decide ((UInt8.ofNat (settingsFlags s)).toNat &&& 1 ≠ 0) = s.enableChecksum ∧
    decide ((UInt8.ofNat (settingsFlags s)).toNat &&& (1 <<< 1) ≠ 0) = s.sendFileChunks ∧
    decide ((UInt8.ofNat (settingsFlags s)).toNat &&& (1 <<< 2) ≠ 0) = s.blockModeDisabled ∧
    decide ((UInt8.ofNat (settingsFlags s)).toNat &&& (1 <<< 3) ≠ 0) = s.enableHeartBeat := by
  unfold settingsFlags
  generalize s.enableChecksum = a
  generalize s.sendFileChunks = b
  generalize s.blockModeDisabled = c
  generalize s.enableHeartBeat = d
  revert a b c d
  decide

theorem seg_prefix {mem p r : Bytes} {a b b' : Int} (h0 : 0 ≤ a) (h : seg mem a b = p ++ r)
    (hb : a + p.length ≤ b') : ∃ r', seg mem a b' = p ++ r' := by
  have h1 : p <+: mem.drop a.toNat := by
    have : p <+: seg mem a b := ⟨r, h.symm⟩
    unfold seg at this
    rw [List.drop_take] at this
    exact this.trans (List.take_prefix _ _)
  have h2 : p <+: seg mem a b' := by
    unfold seg
    rw [List.drop_take, List.prefix_take_iff]
    exact ⟨h1, by omega⟩
  obtain ⟨r', hr'⟩ := h2
  exact ⟨r', hr'.symm⟩

theorem seg_drop {mem p r : Bytes} {a b : Int} (h0 : 0 ≤ a) (h : seg mem a b = p ++ r) :
    seg mem (a + p.length) b = r := by
  have : seg mem (a + p.length) b = (seg mem a b).drop p.length := by
    unfold seg
    rw [List.drop_drop]
    congr 1
    omega
  rw [this, h]; simp

/-- The receiver first decodes the version with a limit of 10 bytes, then the
rest of the settings. -/
theorem C08_settings_roundtrip (ver : Int) (hver : 0 ≤ ver ∧ ver ≤ int32Max) (s : Settings) (hs : s.WF)
    (max : Int) (hm : max ≤ int64Max) (buf buf' : Bytes) (off off' : Int)
    (h0 : 0 ≤ off) (h1 : off ≤ max) (h2 : max ≤ buf.length)
    (he : encodeSettings ver max s buf off = .ok (true, buf', off'))
    (m m' : Int) (hm1 : off' ≤ m) (hm2 : m ≤ buf'.length) (hm3 : off + (nnBytes ver).length ≤ m')
    (hm4 : m' ≤ buf'.length) :
    ∃ off1, decodeVersion buf' off m' = .ok (some ver, off1) ∧
      decodeSettings ver {} buf' off1 m = .ok (some (s.carried ver), off') := by
  obtain ⟨a1, a2, a3, a4, a5⟩ := hs
  have hle : int32Max ≤ int64Max := by decide
  have w := writes_encodeSettings (by omega) hm ver s ⟨hver.1, by omega⟩ ⟨a1, by omega⟩ ⟨a3, by omega⟩
  generalize hB : (nnBytes ver ++ (nnBytes s.readTimeoutMillis ++ (nnBytes s.writeTimeoutMillis ++
    (strBytes s.transferId ++
      if ver ≥ SETTINGS_FLAG_VERSION then [UInt8.ofNat (settingsFlags s)] else [])))) = B at w
  have hpos := nnBytes_length_pos ver
  obtain ⟨rest, hr, hoff, hoffm, hlen⟩ := range_after w h0 h1 h2 he m hm1 hm2
  have hBl := congrArg List.length hB
  simp only [List.length_append] at hBl
  have hp1 := nnBytes_length_pos s.readTimeoutMillis
  have hseg : seg buf' off m = nnBytes ver ++ ((nnBytes s.readTimeoutMillis ++
      (nnBytes s.writeTimeoutMillis ++ strBytes s.transferId)) ++
      ((if ver ≥ SETTINGS_FLAG_VERSION then [UInt8.ofNat (settingsFlags s)] else []) ++ rest)) := by
    rw [makeByteRange_ok _ _ _ h0 (by omega) hm2] at hr
    rw [Except.ok.inj hr, ← hB]
    simp only [List.append_assoc]
  refine ⟨off + (nnBytes ver).length, ?_, ?_⟩
  · obtain ⟨r', hr'⟩ := seg_prefix h0 hseg hm3
    unfold decodeVersion withRange
    rw [makeByteRange_ok _ _ _ h0 (by omega) hm4, hr']
    simp only [Except.ok.injEq, Prod.mk.injEq]
    have e : (nnBytes ver ++ r').length = (nnBytes ver).length + r'.length := List.length_append
    have : decodeInt32C (nnBytes ver ++ r') = (some ver, r') := parses_decodeInt32C ver hver.1 hver.2 r'
    rw [this]
    simp only [true_and]
    omega
  · have hs2 := seg_drop h0 hseg
    have pf : Parses (decodeSettingsFixed {}) (nnBytes s.readTimeoutMillis ++
        (nnBytes s.writeTimeoutMillis ++ strBytes s.transferId))
        { readTimeoutMillis := s.readTimeoutMillis, writeTimeoutMillis := s.writeTimeoutMillis,
          transferId := s.transferId } :=
      (parses_decodeInt32C _ a1 a2).bind <| (parses_decodeInt32C _ a3 a4).bind <|
        (parses_decodeString _ (strlen_ok a5)).map _
    unfold decodeSettings
    rw [if_neg (by omega), if_neg (by omega), makeByteRange_ok _ _ _ (by omega) (by omega) hm2, hs2]
    simp only
    have := pf ((if ver ≥ SETTINGS_FLAG_VERSION then [UInt8.ofNat (settingsFlags s)] else []) ++ rest)
    rw [this]
    simp only
    have e12 : SETTINGS_FLAG_VERSION = 12 := rfl
    by_cases hv : ver ≥ SETTINGS_FLAG_VERSION
    · obtain ⟨f1, f2, f3, f4⟩ := settingsFlags_bits s
      simp only [if_pos hv, List.cons_append, List.nil_append, f1, f2, f3, f4, Except.ok.injEq,
        Prod.mk.injEq, Option.some.injEq, List.length_append, List.length_cons]
      simp only [if_pos hv, List.length_singleton] at hBl
      refine ⟨?_, by omega⟩
      unfold Settings.carried
      rw [if_pos (by omega)]
    · simp only [if_neg hv, List.nil_append, Except.ok.injEq,
        Prod.mk.injEq, Option.some.injEq, List.length_append]
      simp only [if_neg hv, List.length_nil] at hBl
      refine ⟨?_, by omega⟩
      unfold Settings.carried
      rw [if_neg (by omega)]

/-- Settings with a legal transfer id always fit `kMaxSettings`, the limit the
sender passes, and the first 256 bytes contain all of them when the id has at
most 230 bytes. -/
theorem C08_settings_fit (ver : Int) (hver : 0 ≤ ver ∧ ver ≤ int32Max) (s : Settings) (hs : s.WF)
    (hid : (s.transferId.length : Int) ≤ kMaxTransferIdLength) (buf : Bytes)
    (hbuf : kMaxSettings ≤ buf.length) :
    ∃ buf' off', encodeSettings ver kMaxSettings s buf 1 = .ok (true, buf', off') ∧
      off' ≤ kMaxSettings ∧ (s.transferId.length ≤ 230 → off' ≤ kMinBufLength) := by
  obtain ⟨a1, a2, a3, a4, a5⟩ := hs
  have hle : int32Max ≤ int64Max := by decide
  have hk : kMaxSettings = 1056 := rfl
  have ht : kMaxTransferIdLength = 1024 := rfl
  have hmin : kMinBufLength = 256 := rfl
  have h32 : int32Max = 2147483647 := rfl
  have w := writes_encodeSettings (max := kMaxSettings) (by omega) (by rw [hk]; decide) ver s
    ⟨hver.1, by omega⟩ ⟨a1, by omega⟩ ⟨a3, by omega⟩
  have l1 : (nnBytes ver).length ≤ 5 := encodeVarU64Str_length_lt 5 _ (by omega) (by omega) (by omega)
  have l2 : (nnBytes s.readTimeoutMillis).length ≤ 5 :=
    encodeVarU64Str_length_lt 5 _ (by omega) (by omega) (by omega)
  have l3 : (nnBytes s.writeTimeoutMillis).length ≤ 5 :=
    encodeVarU64Str_length_lt 5 _ (by omega) (by omega) (by omega)
  have l4 : (encodeVarU64Str s.transferId.length).length ≤ 2 :=
    encodeVarU64Str_length_lt 2 _ (by omega) (by omega) (by omega)
  generalize hB : (nnBytes ver ++ (nnBytes s.readTimeoutMillis ++ (nnBytes s.writeTimeoutMillis ++
    (strBytes s.transferId ++
      if ver ≥ SETTINGS_FLAG_VERSION then [UInt8.ofNat (settingsFlags s)] else [])))) = B at w
  have hBl : B.length ≤ 15 + 2 + s.transferId.length + 1 := by
    rw [← hB]; unfold strBytes
    simp only [List.length_append]
    split <;> simp only [List.length_singleton, List.length_nil] <;> omega
  have w' := (w buf 1 (by omega) (by omega) (by omega)).1 (by omega)
  exact ⟨_, _, w', by omega, fun _ => by omega⟩

example : ({ readTimeoutMillis := 5000, writeTimeoutMillis := 5000, transferId := [49, 50],
             enableChecksum := true } : Settings).WF := by
  unfold Settings.WF; decide

/-- Witness for the theorem below: a 260 byte transfer id. -/
def longIdSettings : Settings :=
  { readTimeoutMillis := 5000, writeTimeoutMillis := 5000, sendFileChunks := true,
    transferId := List.replicate 260 97 }

/-- Buffer part of an encoder result (for witnesses). -/
def bufOf : Except Fault (Bool × Bytes × Int) → Bytes
  | .ok (_, b, _) => b
  | .error _ => []
/-- Offset part of an encoder result (for witnesses). -/
def offOf : Except Fault (Bool × Bytes × Int) → Int
  | .ok (_, _, o) => o
  | .error _ => 0

/-- Disagreement with the code: when resuming (`sendFileChunks`) the sender
transmits exactly 256 bytes of the settings message (SenderThread.cpp:236).  With
a longer transfer id, legal up to 1024 bytes, the rest of the id is not sent and
the receiver completes it with whatever its buffer held before, so it sees
another id. -/
theorem C08_resume_long_id_truncated :
    ∃ (s : Settings) (sendBuf recvBuf buf' : Bytes) (off' : Int), s.WF ∧
      (s.transferId.length : Int) ≤ kMaxTransferIdLength ∧ s.sendFileChunks = true ∧
      encodeSettings 30 kMaxSettings s sendBuf 1 = .ok (true, buf', off') ∧
      ∃ s' off1 off2, decodeVersion (splice recvBuf 0 (buf'.take 256)) 1 10 = .ok (some 30, off1) ∧
        decodeSettings 30 {} (splice recvBuf 0 (buf'.take 256)) off1 1066 = .ok (some s', off2) ∧
        s'.transferId ≠ s.transferId := by
  refine ⟨longIdSettings, List.replicate 1056 0, List.replicate 1066 0,
    bufOf (encodeSettings 30 kMaxSettings longIdSettings (List.replicate 1056 0) 1),
    offOf (encodeSettings 30 kMaxSettings longIdSettings (List.replicate 1056 0) 1), ?_, ?_, rfl,
    by decide +kernel, ?_⟩
  · unfold Settings.WF; decide +kernel
  · decide +kernel
  · refine ⟨{ longIdSettings with transferId := List.replicate 248 97 ++ List.replicate 12 0, sendFileChunks := false }, 2, 269,
      by decide +kernel, by decide +kernel, by decide +kernel⟩

/-- Any bytes decoded as settings, at any offset, even before or behind the bytes: no fault, and the offset
stays where it is or moves inside. -/
theorem C08_decodeSettings_total (ver : Int) (s0 : Settings) (src : Bytes) (off max : Int)
    (h2 : max ≤ src.length) :
    ∃ r off', decodeSettings ver s0 src off max = .ok (r, off') ∧ off ≤ off' ∧ (off' = off ∨ off' ≤ max) ∧
      ((off < 0 ∨ max ≤ off) → r = none) := by
  by_cases h0 : off < 0
  · exact ⟨none, off, by unfold decodeSettings; rw [if_pos h0], Int.le_refl _, .inl rfl, fun _ => rfl⟩
  by_cases h1 : off ≥ max
  · exact ⟨none, off, by unfold decodeSettings; rw [if_neg h0, if_pos h1], Int.le_refl _, .inl rfl, fun _ => rfl⟩
  have h0 : 0 ≤ off := by omega
  have h1 : off ≤ max := by omega
  suffices h : ∃ r off', decodeSettings ver s0 src off max = .ok (r, off') ∧ off ≤ off' ∧ off' ≤ max by
    obtain ⟨r, o, e, a, b⟩ := h
    exact ⟨r, o, e, a, .inr b, fun h => by omega⟩
  have s1 : ∀ s0, Suffixy (decodeSettingsFixed s0) := fun s0 =>
    suffixy_decodeInt32C.bind fun _ => suffixy_decodeInt32C.bind fun _ =>
    suffixy_decodeString.bind fun _ => suffixy_pure _
  have hl := seg_length src off max h0 h1 h2
  unfold decodeSettings
  rw [if_neg (by omega)]
  split
  · exact ⟨_, _, rfl, by omega, by omega⟩
  rw [makeByteRange_ok _ _ _ h0 h1 h2]
  simp only
  obtain ⟨p1, hp1⟩ := s1 { s0 with enableChecksum := false, sendFileChunks := false } (seg src off max)
  rcases hd : decodeSettingsFixed { s0 with enableChecksum := false, sendFileChunks := false }
    (seg src off max) with ⟨_ | b, br'⟩
  · rw [hd] at hp1
    have := congrArg List.length hp1
    simp only [List.length_append] at this
    exact ⟨_, _, rfl, by omega, by omega⟩
  · rw [hd] at hp1
    have := congrArg List.length hp1
    simp only [List.length_append] at this
    simp only
    split
    · cases br' with
      | nil => exact ⟨_, _, rfl, by omega, by omega⟩
      | cons f br'' =>
        simp only [List.length_cons] at this
        exact ⟨_, _, rfl, by omega, by omega⟩
    · exact ⟨_, _, rfl, by omega, by omega⟩

/-! ## C09 Control messages round-trip and have their fixed size -/

/-- DONE: number of blocks and, from version 16 on, number of bytes. -/
theorem C09_done (ver n b : Int) (hn : NN n) (hb : NN b) (buf : Bytes) (hbuf : kMaxDone ≤ buf.length) :
    ∃ buf' off', encodeDone ver kMaxDone n b buf 2 = .ok (true, buf', off') ∧
      ∀ m, kMaxDone ≤ m → m ≤ buf.length → decodeDone ver buf' 2 m =
        .ok (some (n, if ver ≥ 16 then some b else none), off') := by
  have hk : kMaxDone = 22 := rfl
  have w := writes_encodeDone (max := kMaxDone) (by omega) (by rw [hk]; decide) ver n b hn hb
  have l1 := nnBytes_length_le n
  have l2 := nnBytes_length_le b
  have hlen : (nnBytes n ++ if ver ≥ CHECKPOINT_OFFSET_VERSION then nnBytes b else []).length ≤ 18 := by
    simp only [List.length_append]
    split <;> (try simp only [List.length_nil]) <;> omega
  have w' := (w buf 2 (by omega) (by omega) (by omega)).1 (by omega)
  have hl := splice_length buf 2 (nnBytes n ++ if ver ≥ CHECKPOINT_OFFSET_VERSION then nnBytes b else [])
    (by omega)
  refine ⟨_, _, w', fun m hm1 hm2 => ?_⟩
  refine withRange_roundtrip w ?_ (by omega) (by omega) (by omega) w' m (by omega) ?_
  · refine (parses_nn hn).bind ?_
    by_cases hv : ver ≥ 16
    · have hv' : ver ≥ CHECKPOINT_OFFSET_VERSION := hv
      simp only [if_pos hv, if_pos hv']
      exact (parses_nn hb).map _
    · have hv' : ¬ ver ≥ CHECKPOINT_OFFSET_VERSION := hv
      simp only [if_neg hv, if_neg hv']
      exact parses_pure _
  · show m ≤ ((splice buf (2 : Int).toNat _).length : Int)
    have : (2 : Int).toNat = 2 := rfl
    rw [this, hl]; exact hm2

example : NN 17 ∧ NN 123456789 := by unfold NN; decide

/-- SIZE. -/
theorem C09_size (n : Int) (hn : NN n) (buf : Bytes) (hbuf : kMaxSize ≤ buf.length) :
    ∃ buf' off', encodeSize kMaxSize n buf 1 = .ok (true, buf', off') ∧
      ∀ m, kMaxSize ≤ m → m ≤ buf.length → decodeSize buf' 1 m = .ok (some n, off') := by
  have hk : kMaxSize = 11 := rfl
  have w : Writes kMaxSize (encodeSize kMaxSize n) (nnBytes n) :=
    writes_nn (by omega) (by rw [hk]; decide) hn
  have l1 := nnBytes_length_le n
  have w' := (w buf 1 (by omega) (by omega) (by omega)).1 (by omega)
  have hl := splice_length buf (1 : Int).toNat (nnBytes n) (by omega)
  refine ⟨_, _, w', fun m hm1 hm2 => ?_⟩
  exact withRange_roundtrip w (parses_nn hn) (by omega) (by omega) (by omega) w' m (by omega) (by omega)

/-- CHUNKS: exactly 16 bytes. -/
theorem C09_chunksCmd (max a b : Int) (ha : NN a) (hb : NN b) (buf : Bytes) (off : Int)
    (h0 : 0 ≤ off) (h1 : off + kChunksCmdLen ≤ max) (h2 : max ≤ buf.length) :
    ∃ buf', encodeChunksCmd max a b buf off = .ok (true, buf', off + kChunksCmdLen) ∧
      decodeChunksCmd buf' off (off + kChunksCmdLen) = .ok (some (a, b), off + kChunksCmdLen) := by
  have hk : kChunksCmdLen = 16 := rfl
  have h64 : int64Max = 9223372036854775807 := rfl
  have w := writes_encodeChunksCmd max a b
  have e : (leBytes 8 a ++ leBytes 8 b).length = 16 := by simp [leBytes_length]
  have w' := (w buf off h0 (by omega) h2).1 (by rw [e]; omega)
  rw [e] at w'
  have hl := splice_length buf off.toNat (leBytes 8 a ++ leBytes 8 b) (by omega)
  refine ⟨_, by rw [hk]; exact w', ?_⟩
  rw [hk]
  refine withRange_roundtrip w ?_ h0 (by omega) h2 w' (off + 16) (by omega) (by omega)
  obtain ⟨ha0, ha1⟩ := ha
  obtain ⟨hb0, hb1⟩ := hb
  exact (parses_decodeIntFixed 8 a ha0 (by omega)).bind
    ((parses_decodeIntFixed 8 b hb0 (by omega)).map _)

/-- Checksum footer: any 32-bit checksum, at most 5 bytes after the command
byte. -/
theorem C09_footer (c : Int) (h1 : int32Min ≤ c) (h2 : c ≤ int32Max) (buf : Bytes)
    (hbuf : kMaxFooter ≤ buf.length) :
    ∃ buf' off', encodeFooter kMaxFooter c buf 1 = .ok (true, buf', off') ∧ off' ≤ 6 ∧
      ∀ m, kMaxFooter ≤ m → m ≤ buf.length → decodeFooter buf' 1 m = .ok (some c, off') := by
  have hk : kMaxFooter = 11 := rfl
  have e1 : int32Min = -2147483648 := rfl
  have e2 : int32Max = 2147483647 := rfl
  have w : Writes kMaxFooter (encodeFooter kMaxFooter c) (encodeVarU64Str (zigzag c)) :=
    writes_encodeVarI64 kMaxFooter (by omega) (by rw [hk]; decide) c (by omega) (by omega)
  have l1 : (encodeVarU64Str (zigzag c)).length ≤ 5 := by
    refine encodeVarU64Str_length_lt 5 _ (by omega) (by omega) ?_
    unfold zigzag
    split <;> omega
  have w' := (w buf 1 (by omega) (by omega) (by omega)).1 (by omega)
  have hl := splice_length buf (1 : Int).toNat (encodeVarU64Str (zigzag c)) (by omega)
  refine ⟨_, _, w', by omega, fun m hm1 hm2 => ?_⟩
  exact withRange_roundtrip w (parses_decodeInt32 c h1 h2) (by omega) (by omega) (by omega) w' m
    (by omega) (by omega)

/-- Encryption settings: exactly `kEncryptionCmdLen` bytes including the command
byte, for a 16 byte IV. -/
theorem C09_encryption (t : Int) (ht : 0 ≤ t) (ht' : t < 128) (iv : Bytes) (hiv : iv.length = 16)
    (tag : Int) (h1 : 0 ≤ tag) (h2 : tag ≤ int32Max) (buf : Bytes) (hbuf : kEncryptionCmdLen ≤ buf.length) :
    ∃ buf', encodeEncryptionSettings kEncryptionCmdLen t iv tag buf 1 =
        .ok (true, buf', kEncryptionCmdLen) ∧
      decodeEncryptionSettings buf' 1 kEncryptionCmdLen = .ok (some (t, iv, tag), kEncryptionCmdLen) := by
  have hk : kEncryptionCmdLen = 23 := rfl
  have e2 : int32Max = 2147483647 := rfl
  have e3 : int64Max = 9223372036854775807 := rfl
  have hnn : NN t := ⟨ht, by omega⟩
  have w := writes_encodeEncryptionSettings (max := kEncryptionCmdLen) (by omega) (by rw [hk]; decide)
    t iv tag hnn
  have l1 : (nnBytes t).length = 1 := by
    have := nnBytes_length_pos t
    have := encodeVarU64Str_length_lt 1 t.toNat (by omega) (by omega) (by omega)
    unfold nnBytes at *; omega
  have l2 : (encodeVarU64Str iv.length).length = 1 := by rw [hiv]; decide +kernel
  have e : (nnBytes t ++ (strBytes iv ++ leBytes 4 tag)).length = 22 := by
    unfold strBytes
    simp only [List.length_append, l1, l2, leBytes_length]; omega
  have w' := (w buf 1 (by omega) (by omega) (by omega)).1 (by rw [e]; omega)
  have hl := splice_length buf (1 : Int).toNat (nnBytes t ++ (strBytes iv ++ leBytes 4 tag)) (by omega)
  rw [e] at w'
  refine ⟨_, w', ?_⟩
  refine withRange_roundtrip w ?_ (by omega) (by omega) (by omega) w' _ (by omega) (by omega)
  exact (parses_nn hnn).bind <| (parses_decodeString iv (by omega)).bind <|
    (parses_decodeIntFixed 4 tag h1 (by omega)).map _

/-- ABORT: exactly `kAbortLength` bytes. -/
theorem C09_abort (max ver c : Int) (ec : Nat) (hv : 0 ≤ ver) (hv' : ver ≤ int32Max) (hc : NN c)
    (hec : ec < 256) (buf : Bytes) (off : Int) (h0 : 0 ≤ off) (h1 : off + kAbortLength ≤ max)
    (h2 : max ≤ buf.length) :
    ∃ buf', encodeAbort max ver ec c buf off = .ok (true, buf', off + kAbortLength) ∧
      ∀ m, off + kAbortLength ≤ m → m ≤ buf.length →
        decodeAbort buf' off m = .ok (some (ver, ec, c), off + kAbortLength) := by
  have hk : kAbortLength = 13 := rfl
  have e2 : int32Max = 2147483647 := rfl
  have e3 : int64Max = 9223372036854775807 := rfl
  have w := writes_encodeAbort max ver ec c
  generalize hB : (leBytes 4 ver ++ ([UInt8.ofNat ec] ++ leBytes 8 c)) = B at w
  have e : B.length = 13 := by rw [← hB]; simp [leBytes_length]
  have w' := (w buf off h0 (by omega) h2).1 (by rw [e]; omega)
  rw [e] at w'
  have hl := splice_length buf off.toNat B (by omega)
  refine ⟨_, by rw [hk]; exact w', fun m hm1 hm2 => ?_⟩
  rw [hk]
  obtain ⟨rest, hr, _, _, _⟩ := range_after w h0 (by omega) h2 w' m (by omega) (by omega)
  unfold decodeAbort
  rw [if_neg (by omega), hr, ← hB]
  have p1 := parses_decodeIntFixed 4 ver hv (by omega) (([UInt8.ofNat ec] ++ leBytes 8 c) ++ rest)
  have p2 := parses_decodeIntFixed 8 c hc.1 (by have := hc.2; omega) rest
  rw [List.append_assoc]
  simp only
  rw [p1]
  simp only [List.cons_append, List.nil_append]
  rw [p2]
  simp only [Except.ok.injEq, Prod.mk.injEq, Option.some.injEq, true_and, List.length_append,
    List.length_cons, leBytes_length]
  refine ⟨⟨?_, trivial⟩, by omega⟩
  rw [UInt8.toNat_ofNat']; omega

/-- Any bytes decoded as ABORT, at any offset that is not negative: no fault, nothing is read unless all of the message is there. -/
theorem C09_decodeAbort_total (src : Bytes) (off max : Int) (h0 : 0 ≤ off) (h2 : max ≤ src.length) :
    ∃ r off', decodeAbort src off max = .ok (r, off') ∧ off ≤ off' ∧ off' ≤ off + kAbortLength ∧
      (max < off + kAbortLength → r = none ∧ off' = off) := by
  have hk : kAbortLength = 13 := rfl
  unfold decodeAbort
  by_cases h : off + kAbortLength > max
  · rw [if_pos h]
    exact ⟨_, _, rfl, Int.le_refl _, by omega, fun _ => ⟨rfl, rfl⟩⟩
  rw [if_neg h, makeByteRange_ok _ _ _ h0 (by omega) h2]
  have hl := seg_length src off max h0 (by omega) h2
  generalize seg src off max = br at hl
  simp only
  rcases hd : decodeIntFixed 4 br with ⟨_ | v, br1⟩
  · exact ⟨_, _, rfl, Int.le_refl _, by omega, fun h => by omega⟩
  · have e1 : br1 = br.drop 4 := by
      unfold decodeIntFixed at hd
      rw [if_neg (by omega)] at hd
      simp only at hd
      split at hd <;> simp_all
    cases br1 with
    | nil =>
      have := congrArg List.length e1
      simp only [List.length_nil, List.length_drop] at this
      omega
    | cons x br2 =>
      have h5 := congrArg List.length e1
      simp only [List.length_cons, List.length_drop] at h5
      simp only
      have e2 : (decodeIntFixed 8 br2).2 = br2.drop 8 := by
        unfold decodeIntFixed
        rw [if_neg (by omega)]
        simp only
        split <;> rfl
      rcases hd2 : decodeIntFixed 8 br2 with ⟨_ | c, br3⟩ <;> rw [hd2] at e2 <;> simp only at e2 <;> subst e2 <;>
        refine ⟨_, _, rfl, ?_, ?_, fun h => by omega⟩ <;> simp only [List.length_drop] <;> omega

/-- Case: an ABORT of which the last byte is missing. -/
example : decodeAbort [31, 0, 0, 0, 0, 0, 0, 0, 0, 0, 0, 0] 0 12 = .ok (none, 0) := by decide +kernel

end Wdt
