import Verif.Model.Protocol
import Verif.Lemmas.Serial
/-
Helper lemmas: each message encoder writes a pure byte list, each decoder parses
that list.
-/
namespace Wdt

/-! ### Generic plumbing -/

theorem writes_when {max : Int} (c : Prop) [Decidable c] {e : Enc} {bs : Bytes}
    (w : c → Writes max e bs) : Writes max (Enc.when c e) (if c then bs else []) := by
  unfold Enc.when
  by_cases h : c
  · simp only [h, if_true]; exact w h
  · simp only [h, if_false]; exact writes_skip max

theorem writes_checkMax {max : Int} (h : 0 ≤ max) {e : Enc} {bs : Bytes} (w : Writes max e bs) :
    Writes max (Enc.checkMax max e) bs := by
  intro buf off h0 h1 h2
  unfold Enc.checkMax
  rw [if_neg (by omega)]
  exact w buf off h0 h1 h2

theorem writes_all {α : Type} {max : Int} (f : α → Enc) (g : α → Bytes) (l : List α)
    (w : ∀ a ∈ l, Writes max (f a) (g a)) : Writes max (Enc.all f l) (l.flatMap g) := by
  induction l with
  | nil => exact writes_skip max
  | cons a l ih =>
    simp only [List.flatMap_cons]
    exact (w a (by simp)).and (ih (fun b hb => w b (by simp [hb])))

theorem Parses.map {α β : Type} {d : Dec α} {bs : Bytes} {a : α} (p : Parses d bs a) (g : α → β) :
    Parses (d.bind fun x => Dec.pure (g x)) bs (g a) := by
  have := p.bind (f := fun x => Dec.pure (g x)) (parses_pure (g a))
  rwa [List.append_nil] at this

theorem parses_times {α : Type} (d : Dec α) (g : α → Bytes) (h : α → α) (l : List α)
    (p : ∀ a ∈ l, Parses d (g a) (h a)) : Parses (Dec.times d l.length) (l.flatMap g) (l.map h) := by
  induction l with
  | nil => exact parses_pure _
  | cons a l ih =>
    simp only [List.flatMap_cons, List.length_cons, List.map_cons, Dec.times]
    refine (p a (by simp)).bind ?_
    exact (ih (fun b hb => p b (by simp [hb]))).map (fun as => h a :: as)

theorem suffixy_times {α : Type} (d : Dec α) (h : Suffixy d) (n : Nat) : Suffixy (Dec.times d n) := by
  induction n with
  | zero => exact suffixy_pure _
  | succ n ih => exact h.bind fun a => ih.bind fun as => suffixy_pure _

theorem makeByteRange_ok (src : Bytes) (off max : Int) (h0 : 0 ≤ off) (h1 : off ≤ max)
    (h2 : max ≤ src.length) : makeByteRange src max off = .ok (seg src off max) := by
  unfold makeByteRange seg
  rw [if_neg (by omega), if_neg (by omega)]

/-- The result of a successful encoder, seen by a decoder that starts at the
same place. -/
theorem range_after {max : Int} {e : Enc} {bs : Bytes} (w : Writes max e bs) {buf buf' : Bytes}
    {off off' : Int} (h0 : 0 ≤ off) (h1 : off ≤ max) (h2 : max ≤ buf.length)
    (he : e buf off = .ok (true, buf', off')) (m : Int) (hm : off' ≤ m) (hm' : m ≤ buf'.length) :
    ∃ rest, makeByteRange buf' m off = .ok (bs ++ rest) ∧ off' = off + bs.length ∧
      off' ≤ max ∧ buf'.length = buf.length := by
  have w' := w buf off h0 h1 h2
  by_cases hf : off + bs.length ≤ max
  · have := w'.1 hf
    rw [he] at this
    simp only [Except.ok.injEq, Prod.mk.injEq, true_and] at this
    obtain ⟨rfl, rfl⟩ := this
    have hl := splice_length buf off.toNat bs (by omega)
    refine ⟨(buf.drop (off.toNat + bs.length)).take (m.toNat - (off.toNat + bs.length)), ?_, rfl, hf, hl⟩
    rw [makeByteRange_ok _ _ _ h0 (by omega) hm']
    congr 1
    unfold seg splice
    rw [List.take_append, List.take_of_length_le (by simp; omega), List.append_assoc,
      List.drop_append_of_le_length (by simp; omega), List.drop_of_length_le (by simp; omega)]
    simp
    congr 1
    omega
  · obtain ⟨_, _, he', _⟩ := w'.2 (by omega)
    rw [he] at he'; simp at he'

theorem withRange_roundtrip {α : Type} {d : Dec α} {a : α} {max : Int} {e : Enc} {bs : Bytes}
    (w : Writes max e bs) (p : Parses d bs a) {buf buf' : Bytes}
    {off off' : Int} (h0 : 0 ≤ off) (h1 : off ≤ max) (h2 : max ≤ buf.length)
    (he : e buf off = .ok (true, buf', off')) (m : Int) (hm : off' ≤ m) (hm' : m ≤ buf'.length) :
    withRange d buf' off m = .ok (some a, off') := by
  obtain ⟨rest, hr, hoff, _, _⟩ := range_after w h0 h1 h2 he m hm hm'
  unfold withRange
  rw [hr]
  simp only [p rest, List.length_append, Except.ok.injEq, Prod.mk.injEq, true_and]
  omega

/-- An encoder succeeds exactly when its bytes fit. -/
theorem Writes.ok_iff {max : Int} {e : Enc} {bs : Bytes} (w : Writes max e bs) (buf : Bytes)
    (off : Int) (h0 : 0 ≤ off) (h1 : off ≤ max) (h2 : max ≤ buf.length) :
    (∃ buf' off', e buf off = .ok (true, buf', off')) ↔ off + bs.length ≤ max := by
  have w' := w buf off h0 h1 h2
  constructor
  · rintro ⟨buf', off', h⟩
    by_cases hf : off + bs.length ≤ max
    · exact hf
    · obtain ⟨_, _, he', _⟩ := w'.2 (by omega)
      rw [h] at he'; simp at he'
  · intro h
    exact ⟨_, _, w'.1 h⟩

theorem withRange_total {α : Type} {d : Dec α} (hd : Suffixy d) (src : Bytes) (off max : Int)
    (h0 : 0 ≤ off) (h1 : off ≤ max) (h2 : max ≤ src.length) :
    ∃ r off', withRange d src off max = .ok (r, off') ∧ off ≤ off' ∧ off' ≤ max := by
  unfold withRange
  rw [makeByteRange_ok _ _ _ h0 h1 h2]
  refine ⟨_, _, rfl, ?_, ?_⟩
  all_goals
    obtain ⟨p, hp⟩ := hd (seg src off max)
    have hl := seg_length src off max h0 h1 h2
    have := congrArg List.length hp
    simp only [List.length_append] at this
    omega

/-- Range of `int64_t` values that the non-negative encoding supports. -/
def NN (i : Int) : Prop := 0 ≤ i ∧ i ≤ int64Max

instance (i : Int) : Decidable (NN i) := by unfold NN; infer_instance

/-- Bytes of a non-negative varint. -/
def nnBytes (i : Int) : Bytes := encodeVarU64Str i.toNat

theorem nnBytes_length_le (i : Int) : (nnBytes i).length ≤ 9 := encodeVarU64Str_length_le _
theorem nnBytes_length_pos (i : Int) : 1 ≤ (nnBytes i).length := encodeVarU64Str_length_pos _

section
variable {max : Int} (hm0 : 0 ≤ max) (hm : max ≤ int64Max)
include hm0 hm

theorem writes_nn {v : Int} (h : NN v) : Writes max (encodeVarI64C (toU64 max) v) (nnBytes v) :=
  writes_encodeVarI64C max hm0 hm v h.1

/-! ### Header -/

/-- Bytes of a header. -/
def headerBytes (ver : Int) (b : BlockDetails) : Bytes :=
  strBytes b.fileName ++ (nnBytes b.seqId ++ (nnBytes b.dataSize ++ (nnBytes b.offset ++
    (nnBytes b.fileSize ++
    (if ver ≥ HEADER_FLAG_AND_PREV_SEQ_ID_VERSION then
      [UInt8.ofNat b.allocationStatus] ++
      (if b.allocationStatus = EXISTS_TOO_SMALL ∨ b.allocationStatus = EXISTS_TOO_LARGE
       then nnBytes b.prevSeqId else [])
     else [])))))

theorem writes_encodeHeader (ver : Int) (b : BlockDetails) (h1 : NN b.seqId) (h2 : NN b.dataSize)
    (h3 : NN b.offset) (h4 : NN b.fileSize) (h5 : NN b.prevSeqId) :
    Writes max (encodeHeader ver max b) (headerBytes ver b) := by
  unfold encodeHeader headerBytes
  exact writes_checkMax hm0 <| (writes_encodeString max hm0 hm _).and <|
    (writes_nn hm0 hm h1).and <| (writes_nn hm0 hm h2).and <| (writes_nn hm0 hm h3).and <|
    (writes_nn hm0 hm h4).and <| writes_when _ fun _ => (writes_encodeByteChecked max _).and <|
    writes_when _ fun _ => writes_nn hm0 hm h5

/-! ### Checkpoints -/

/-- Bytes of one checkpoint. -/
def checkpointBytes (ver : Int) (c : Checkpoint) : Bytes :=
  nnBytes c.port ++ (nnBytes c.numBlocks ++
    ((if ver ≥ CHECKPOINT_OFFSET_VERSION then nnBytes c.lastBlockReceivedBytes else []) ++
    (if ver ≥ CHECKPOINT_SEQ_ID_VERSION then nnBytes c.lastBlockSeqId ++ nnBytes c.lastBlockOffset
     else [])))

/-- Field ranges the encoder accepts. -/
def Checkpoint.WF (c : Checkpoint) : Prop :=
  0 ≤ c.port ∧ c.port ≤ int32Max ∧ NN c.numBlocks ∧ NN c.lastBlockSeqId ∧
  NN c.lastBlockOffset ∧ NN c.lastBlockReceivedBytes

omit hm0 hm in
theorem Checkpoint.WF.port_nn {c : Checkpoint} (h : c.WF) : NN c.port :=
  ⟨h.1, by have := h.2.1; unfold int32Max int64Max at *; omega⟩

theorem writes_encodeCheckpoint (ver : Int) (c : Checkpoint) (h : c.WF) :
    Writes max (encodeCheckpoint ver max c) (checkpointBytes ver c) := by
  unfold encodeCheckpoint checkpointBytes
  exact (writes_nn hm0 hm h.port_nn).and <| (writes_nn hm0 hm h.2.2.1).and <|
    (writes_when _ fun _ => writes_nn hm0 hm h.2.2.2.2.2).and <|
    writes_when _ fun _ => (writes_nn hm0 hm h.2.2.2.1).and (writes_nn hm0 hm h.2.2.2.2.1)

/-- Bytes of a checkpoint list. -/
def checkpointsBytes (ver : Int) (cs : List Checkpoint) : Bytes :=
  encodeVarU64Str cs.length ++ cs.flatMap (checkpointBytes ver)

theorem writes_encodeCheckpoints (ver : Int) (cs : List Checkpoint) (h : ∀ c ∈ cs, c.WF) :
    Writes max (encodeCheckpoints ver max cs) (checkpointsBytes ver cs) := by
  unfold encodeCheckpoints checkpointsBytes
  exact writes_checkMax hm0 <| (writes_encodeVarU64' max hm0 hm _).and <|
    writes_all _ _ _ fun c hc => writes_encodeCheckpoint hm0 hm ver c (h c hc)

/-! ### Other messages -/

theorem writes_encodeDone (ver n b : Int) (h1 : NN n) (h2 : NN b) :
    Writes max (encodeDone ver max n b)
      (nnBytes n ++ if ver ≥ CHECKPOINT_OFFSET_VERSION then nnBytes b else []) := by
  unfold encodeDone
  exact (writes_nn hm0 hm h1).and <| writes_when _ fun _ => writes_nn hm0 hm h2

theorem writes_encodeSettings (ver : Int) (s : Settings) (h0 : NN ver) (h1 : NN s.readTimeoutMillis)
    (h2 : NN s.writeTimeoutMillis) :
    Writes max (encodeSettings ver max s)
      (nnBytes ver ++ (nnBytes s.readTimeoutMillis ++ (nnBytes s.writeTimeoutMillis ++
        (strBytes s.transferId ++
          if ver ≥ SETTINGS_FLAG_VERSION then [UInt8.ofNat (settingsFlags s)] else [])))) := by
  unfold encodeSettings
  exact (writes_nn hm0 hm h0).and <| (writes_nn hm0 hm h1).and <| (writes_nn hm0 hm h2).and <|
    (writes_encodeString max hm0 hm _).and <|
    writes_when _ fun _ => writes_encodeByteChecked max _

theorem writes_encodeEncryptionSettings (t : Int) (iv : Bytes) (tag : Int) (h : NN t) :
    Writes max (encodeEncryptionSettings max t iv tag)
      (nnBytes t ++ (strBytes iv ++ leBytes 4 tag)) := by
  unfold encodeEncryptionSettings
  exact (writes_nn hm0 hm h).and <| (writes_encodeString max hm0 hm _).and <|
    writes_encodeIntFixed 4 max tag

/-! ### Chunk records -/

/-- Bytes of an interval. -/
def chunkBytes (c : Interval) : Bytes := nnBytes c.start ++ nnBytes c.stop

/-- Bytes of a per-file record. -/
def fileChunksBytes (f : FileChunksInfo) : Bytes :=
  nnBytes f.seqId ++ (strBytes f.fileName ++ (nnBytes f.fileSize ++ (nnBytes f.chunks.length ++
    f.chunks.flatMap chunkBytes)))

/-- Field ranges the encoder accepts. -/
def FileChunksInfo.WF (f : FileChunksInfo) : Prop :=
  NN f.seqId ∧ NN f.fileSize ∧ NN f.chunks.length ∧ NN f.fileName.length ∧
  ∀ c ∈ f.chunks, NN c.start ∧ NN c.stop

theorem writes_encodeFileChunksInfo (f : FileChunksInfo) (h : f.WF) :
    Writes max (encodeFileChunksInfo max f) (fileChunksBytes f) := by
  unfold encodeFileChunksInfo fileChunksBytes
  exact (writes_nn hm0 hm h.1).and <| (writes_encodeString max hm0 hm _).and <|
    (writes_nn hm0 hm h.2.1).and <| (writes_nn hm0 hm h.2.2.1).and <|
    writes_all _ _ _ fun c hc =>
      (writes_nn hm0 hm (h.2.2.2.2 c hc).1).and (writes_nn hm0 hm (h.2.2.2.2 c hc).2)

end

theorem writes_storeByteEnc_fits (b : UInt8) (buf : Bytes) (off : Int) (h0 : 0 ≤ off)
    (h : off < buf.length) : storeByteEnc b buf off = .ok (true, splice buf off.toNat [b], off + 1) := by
  unfold storeByteEnc
  rw [storeByte_ok _ _ _ h0 h]

theorem writes_encodeAbort (max ver : Int) (ec : Nat) (c : Int) :
    Writes max (encodeAbort max ver ec c) (leBytes 4 ver ++ ([UInt8.ofNat ec] ++ leBytes 8 c)) := by
  intro buf off h0 h1 h2
  have hlen : ((leBytes 4 ver ++ ([UInt8.ofNat ec] ++ leBytes 8 c)).length : Int) = 13 := by
    simp [leBytes_length]
  unfold encodeAbort kAbortLength
  rw [hlen]
  constructor
  · intro h
    rw [if_neg (by omega)]
    have w1 := (writes_encodeIntFixed 4 max ver buf off h0 h1 h2).1 (by rw [leBytes_length]; omega)
    rw [leBytes_length] at w1
    have l1 := splice_length buf off.toNat (leBytes 4 ver) (by rw [leBytes_length]; omega)
    have w2 := writes_storeByteEnc_fits (UInt8.ofNat ec) (splice buf off.toNat (leBytes 4 ver))
      (off + (4 : Nat)) (by omega) (by omega)
    have l2 := splice_length (splice buf off.toNat (leBytes 4 ver)) (off + (4 : Nat)).toNat
      [UInt8.ofNat ec] (by simp; omega)
    have w3 := (writes_encodeIntFixed 8 max c _ (off + (4 : Nat) + 1) (by omega) (by omega)
      (show max ≤ _ by rw [l2, l1]; exact h2)).1 (by rw [leBytes_length]; omega)
    simp only [Enc.and, w1, w2, w3]
    congr 3
    · rw [← splice_append, ← splice_append]
      · congr 2
        · congr 1
          rw [leBytes_length]; omega
        · rw [leBytes_length]; simp; omega
      · rw [l1]; simp [leBytes_length]; omega
      · simp [leBytes_length]; omega
    · rw [leBytes_length]; omega
  · intro h
    rw [if_pos (by omega)]
    exact ⟨buf, off, rfl, sameOutside_refl _ _ _, by omega, h1⟩

theorem writes_encodeChunksCmd (max a b : Int) :
    Writes max (encodeChunksCmd max a b) (leBytes 8 a ++ leBytes 8 b) :=
  (writes_encodeIntFixed 8 max a).and (writes_encodeIntFixed 8 max b)

/-! ### Parsing -/

theorem parses_nn {v : Int} (h : NN v) : Parses decodeInt64C (nnBytes v) v :=
  parses_decodeInt64C v h.1 h.2

theorem strlen_ok {s : Bytes} (h : NN s.length) : s.length < 2 ^ 64 := by
  unfold NN int64Max at h; omega

theorem parses_decodeHeaderFixed (b0 b : BlockDetails) (hn : NN b.fileName.length) (h1 : NN b.seqId)
    (h2 : NN b.dataSize) (h3 : NN b.offset) (h4 : NN b.fileSize) :
    Parses (decodeHeaderFixed b0)
      (strBytes b.fileName ++ (nnBytes b.seqId ++ (nnBytes b.dataSize ++ (nnBytes b.offset ++
        nnBytes b.fileSize))))
      { b0 with fileName := b.fileName, seqId := b.seqId, dataSize := b.dataSize,
                offset := b.offset, fileSize := b.fileSize } := by
  unfold decodeHeaderFixed
  refine (parses_decodeString _ (strlen_ok hn)).bind <| (parses_nn h1).bind <|
    (parses_nn h2).bind <| (parses_nn h3).bind ?_
  exact (parses_nn h4).map _

theorem parses_decodeHeaderFlags (b : BlockDetails) (st : Nat) (prev : Int) (hst : st < 8)
    (hp : NN prev) :
    Parses (decodeHeaderFlags b)
      ([UInt8.ofNat st] ++ if st = EXISTS_TOO_SMALL ∨ st = EXISTS_TOO_LARGE then nnBytes prev else [])
      (if st = EXISTS_TOO_SMALL ∨ st = EXISTS_TOO_LARGE then
        { b with allocationStatus := st, prevSeqId := prev }
       else { b with allocationStatus := st }) := by
  have h7 : (UInt8.ofNat st).toNat &&& 7 = st := by
    have : ∀ n : Fin 8, (UInt8.ofNat n.val).toNat &&& 7 = n.val := by decide +kernel
    exact this ⟨st, hst⟩
  unfold decodeHeaderFlags
  refine (parses_decodeByte _).bind ?_
  simp only [h7]
  by_cases h : st = EXISTS_TOO_SMALL ∨ st = EXISTS_TOO_LARGE
  · simp only [h, if_true]
    exact (parses_nn hp).map _
  · simp only [h, if_false]
    exact parses_pure _

theorem parses_decodeCheckpointSeqId (ver : Int) (c : Checkpoint) (s o : Int) (hs : NN s)
    (ho : NN o) : Parses (decodeCheckpointSeqId ver c) (nnBytes s ++ nnBytes o)
      { c with lastBlockSeqId := s, lastBlockOffset := o, hasSeqId := true } := by
  unfold decodeCheckpointSeqId
  have hs' := hs
  unfold NN int64Max at hs'
  have hp : Parses decodeUInt64 (nnBytes s) s.toNat := parses_decodeUInt64 _ (by omega)
  refine hp.bind ?_
  intro rest
  have hi : toI64 s.toNat = s := by
    unfold toI64
    rw [Nat.mod_eq_of_lt (by omega)]
    split <;> omega
  simp only [hi]
  rw [if_neg (by omega)]
  exact (parses_nn ho).map _ rest

/-- What a checkpoint looks like after a trip through a given version. -/
def Checkpoint.carried (ver : Int) (c : Checkpoint) : Checkpoint :=
  { port := c.port
    numBlocks := c.numBlocks
    lastBlockReceivedBytes := if ver ≥ 16 then c.lastBlockReceivedBytes else 0
    lastBlockSeqId := if ver ≥ 21 then c.lastBlockSeqId else 0
    lastBlockOffset := if ver ≥ 21 then c.lastBlockOffset else 0
    hasSeqId := decide (ver ≥ 21) }

theorem parses_decodeCheckpoint (ver : Int) (c : Checkpoint) (h : c.WF) :
    Parses (decodeCheckpoint ver) (checkpointBytes ver c) (c.carried ver) := by
  unfold decodeCheckpoint checkpointBytes
  refine (parses_decodeInt32C c.port h.1 h.2.1).bind <| (parses_nn h.2.2.1).bind ?_
  refine Parses.bind (a := if ver ≥ CHECKPOINT_OFFSET_VERSION then
      { port := c.port, numBlocks := c.numBlocks, lastBlockReceivedBytes := c.lastBlockReceivedBytes }
      else { port := c.port, numBlocks := c.numBlocks }) ?_ ?_
  · by_cases hv : ver ≥ CHECKPOINT_OFFSET_VERSION
    · simp only [hv, if_true]
      exact (parses_nn h.2.2.2.2.2).map _
    · simp only [hv, if_false]; exact parses_pure _
  · have e16 : CHECKPOINT_OFFSET_VERSION = 16 := rfl
    have e21 : CHECKPOINT_SEQ_ID_VERSION = 21 := rfl
    unfold Checkpoint.carried
    rw [e16, e21]
    by_cases hv : ver ≥ 21
    · have hv16 : ver ≥ 16 := by omega
      simp only [hv, hv16, if_true, decide_true]
      exact parses_decodeCheckpointSeqId ver _ _ _ h.2.2.2.1 h.2.2.2.2.1
    · simp only [hv, if_false, decide_false]
      have : (if ver ≥ 16 then ({ port := c.port, numBlocks := c.numBlocks, lastBlockReceivedBytes := c.lastBlockReceivedBytes } : Checkpoint) else { port := c.port, numBlocks := c.numBlocks })
        = { port := c.port, numBlocks := c.numBlocks, lastBlockSeqId := 0, lastBlockOffset := 0,
            lastBlockReceivedBytes := if ver ≥ 16 then c.lastBlockReceivedBytes else 0,
            hasSeqId := false } := by split <;> rfl
      rw [this]
      exact parses_pure _

theorem parses_decodeChunkInfo (c : Interval) (h : NN c.start ∧ NN c.stop) :
    Parses decodeChunkInfo (chunkBytes c) c := by
  unfold decodeChunkInfo chunkBytes
  refine (parses_nn h.1).bind ?_
  exact (parses_nn h.2).map _

theorem parses_decodeFileChunksInfo (f : FileChunksInfo) (h : f.WF) :
    Parses decodeFileChunksInfo (fileChunksBytes f) f := by
  unfold decodeFileChunksInfo fileChunksBytes
  refine (parses_nn h.1).bind <| (parses_decodeString _ (strlen_ok h.2.2.2.1)).bind <|
    (parses_nn h.2.1).bind <| (parses_nn h.2.2.1).bind ?_
  rw [if_neg (by omega)]
  rw [show ((f.chunks.length : Int)).toNat = f.chunks.length by omega]
  have p := parses_times decodeChunkInfo chunkBytes id f.chunks
    (fun c hc => parses_decodeChunkInfo c (h.2.2.2.2 c hc))
  rw [List.map_id] at p
  exact p.map _

theorem fileChunksBytes_pos (f : FileChunksInfo) : 1 ≤ (fileChunksBytes f).length := by
  have := nnBytes_length_pos f.seqId
  simp only [fileChunksBytes, List.length_append]; omega

theorem decodeListLoop_bytes (l : List FileChunksInfo) (h : ∀ f ∈ l, f.WF) : ∀ fuel,
    (l.flatMap fileChunksBytes).length ≤ fuel →
    decodeListLoop fuel (l.flatMap fileChunksBytes) = some l := by
  induction l with
  | nil => intro fuel _; unfold decodeListLoop; simp
  | cons f l ih =>
    intro fuel hf
    have hpos := fileChunksBytes_pos f
    simp only [List.flatMap_cons, List.length_append] at hf ⊢
    cases fuel with
    | zero => omega
    | succ n =>
      have p := parses_decodeFileChunksInfo f (h f (by simp)) (l.flatMap fileChunksBytes)
      have ih' := ih (fun g hg => h g (by simp [hg])) n (by omega)
      generalize hB : fileChunksBytes f ++ l.flatMap fileChunksBytes = B at *
      cases B with
      | nil =>
        have := congrArg List.length hB
        simp at this
        have h0 : (fileChunksBytes f).length = 0 := by rw [this.1]; rfl
        omega
      | cons b B =>
        unfold decodeListLoop
        simp only [p, ih', Option.map_some]

end Wdt
