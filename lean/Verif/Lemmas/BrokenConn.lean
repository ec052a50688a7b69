import Verif.Props.SenderStream
/-
Lemmas for C99: the reference parser on the beginning of what a sender wrote.
-/
namespace Wdt

/-- The reference parser on a header and whatever follows it. -/
theorem specCmd_file (crc : Int → UInt8 → Int) (id : Bytes) (ver hver : Int) (hv : hver ≥ 13 ↔ ver ≥ 13)
    (footer : Bool) (status : UInt8) (b : BlockDetails) (hb : b.WF) (hn : b.fileName.length ≤ 204)
    (hdel : b.allocationStatus = TO_BE_DELETED → b.fileSize = 0 ∧ b.dataSize = 0)
    (R : Bytes) (hR : 256 ≤ 4 + (headerBytes hver b).length + R.length) (slack : Nat) :
    specCmd crc id ver footer (([FILE_CMD, status] ++ leBytes 2 (4 + (headerBytes hver b).length) ++ headerBytes hver b) ++ R) slack =
      if (R.length : Int) < b.dataSize then ([.block (b.carried ver) R false], .stop (.reconnect eSOCKET_READ_ERROR))
      else if footer then
        (.block (b.carried ver) (R.take b.dataSize.toNat) true ::
            (specFooter crc (b.carried ver) (R.take b.dataSize.toNat) ver (R.drop b.dataSize.toNat)).1,
          (specFooter crc (b.carried ver) (R.take b.dataSize.toNat) ver (R.drop b.dataSize.toNat)).2)
      else ([.block (b.carried ver) (R.take b.dataSize.toNat) true], .next (R.drop b.dataSize.toNat) ver footer 0) := by
  obtain ⟨q1, q2⟩ := headerBytes_length hver b hn
  have ph := parses_headerDec ver hver hv b hb
  have h2 := leBytes_length 2 (4 + ((headerBytes hver b).length : Int))
  have hle := leNat_leBytes 2 (4 + ((headerBytes hver b).length : Int)) (by omega) (by omega)
  generalize hH : headerBytes hver b = H at *
  generalize hLe : leBytes 2 (4 + (H.length : Int)) = L at *
  have hS : ([FILE_CMD, status] ++ L ++ H) ++ R = FILE_CMD :: status :: (L ++ (H ++ R)) := by
    simp
  rw [hS]
  unfold specCmd
  rw [if_neg (by simp only [List.length_cons, List.length_append]; omega), if_neg (by simp [FILE_CMD]), if_pos (show List.head? _ = some _ from rfl)]
  unfold specFile
  have hi : int16At (FILE_CMD :: status :: (L ++ (H ++ R))) 2 = 4 + H.length := by
    unfold int16At
    simp only [List.drop_succ_cons, List.drop_zero]
    rw [List.take_left' h2, if_pos (by omega), hle]
  have hdrop : (FILE_CMD :: status :: (L ++ (H ++ R))).drop 4 = H ++ R := by
    simp only [List.drop_succ_cons]
    rw [List.drop_left' h2]
  rw [hi, if_neg (by omega), if_neg (by omega), hdrop, ph]
  have hcd : (b.carried ver).dataSize = b.dataSize := rfl
  have hcf : (b.carried ver).fileSize = b.fileSize := rfl
  simp only [hcd, hcf]
  rw [if_neg (by simp only [List.length_cons, List.length_append]; omega), if_neg ?_]
  rintro ⟨h1, h2⟩
  have h3 : b.allocationStatus = TO_BE_DELETED := by
    unfold BlockDetails.carried at h1
    simp only at h1
    split at h1
    · exact h1
    · exact absurd h1 (by decide)
  have := hdel h3
  omega

/-- The reference parser on a right checksum. -/
theorem specFooter_right (crc : Int → UInt8 → Int) (hcrc : ∀ x b, int32Min ≤ crc x b ∧ crc x b ≤ int32Max)
    (b : BlockDetails) (data : Bytes) (ver : Int) (rest : Bytes)
    (hr : 256 ≤ 1 + (encodeVarU64Str (zigzag (data.foldl crc 0))).length + rest.length) :
    specFooter crc b data ver ((FOOTER_CMD :: encodeVarU64Str (zigzag (data.foldl crc 0))) ++ rest) =
      ([.verified b], .next rest ver true (1 + (encodeVarU64Str (zigzag (data.foldl crc 0))).length)) := by
  unfold specFooter
  have q := encodeVarU64Str_length_le (zigzag (data.foldl crc 0))
  rw [if_neg (by simp only [List.length_append, List.length_cons]; omega), if_neg (by simp [FOOTER_CMD])]
  have hrange : int32Min ≤ data.foldl crc 0 ∧ data.foldl crc 0 ≤ int32Max := by
    rcases List.eq_nil_or_concat data with h | ⟨d, x, h⟩
    · rw [h, List.foldl_nil]; decide
    · rw [h, List.concat_eq_append, List.foldl_append]; exact hcrc _ _
  have pz := parses_decodeInt32 (data.foldl crc 0) hrange.1 hrange.2
  generalize encodeVarU64Str (zigzag (data.foldl crc 0)) = Z at *
  have w1 := window [FOOTER_CMD] Z rest 11 (by simp only [List.length_singleton]; omega)
  have hS : FOOTER_CMD :: Z ++ rest = [FOOTER_CMD] ++ (Z ++ rest) := rfl
  rw [hS, show (1 : Nat) = [FOOTER_CMD].length from rfl, w1, pz]
  simp only [ne_eq, not_true_eq_false, if_false]
  have hrl : (rest.take (11 - [FOOTER_CMD].length - Z.length)).length = 10 - Z.length := by
    simp only [List.length_take, List.length_singleton]; omega
  have e : 11 - (10 - Z.length) = ([FOOTER_CMD] ++ Z).length := by
    simp only [List.length_append, List.length_singleton]; omega
  rw [hrl, e, ← List.append_assoc, List.drop_left' rfl, List.length_append]

/-- Too few bytes for a command. -/
theorem specCmd_short (crc : Int → UInt8 → Int) (id : Bytes) (ver : Int) (footer : Bool) (s : Bytes) (slack : Nat)
    (h : s.length < 256) : specCmd crc id ver footer s slack = ([], .stop (.reconnect eSOCKET_READ_ERROR)) := by
  unfold specCmd
  rw [if_pos h]

/-- `obs` is what remains of `full` when the connection breaks: the beginning of `full`,
where of the block that comes next a beginning of its data may have been written. -/
def CutOf (full obs : List RObs) : Prop :=
  obs <+: full ∨ ∃ pre b data m, pre ++ [.block b data true] <+: full ∧ m < data.length ∧
    obs = pre ++ [.block b (data.take m) false]

theorem cutOf_nil (full : List RObs) : CutOf full [] := .inl (List.nil_prefix)

theorem CutOf.append {full obs : List RObs} (h : CutOf full obs) (a : List RObs) : CutOf (a ++ full) (a ++ obs) := by
  rcases h with h | ⟨pre, b, data, m, h1, h2, rfl⟩
  · exact .inl ((List.prefix_append_right_inj a).2 h)
  · refine .inr ⟨a ++ pre, b, data, m, ?_, h2, by simp⟩
    rw [List.append_assoc]
    exact (List.prefix_append_right_inj a).2 h1

/-- Bytes of an item on the wire. -/
def SItem.bytes (hver : Int) (crc : Int → UInt8 → Int) (footer : Bool) : SItem → Bytes
  | .size t => SIZE_CMD :: nnBytes t
  | .block st b data => blockBytes hver crc footer st b data

/-- What is observed of items when the connection breaks. -/
inductive ItemsCut (ver : Int) (footer : Bool) : List SItem → List RObs → Prop
  | stop (items : List SItem) : ItemsCut ver footer items []
  | part {st : UInt8} {b : BlockDetails} {data : Bytes} {m : Nat} (items : List SItem) : m < data.length → (b.fileSize < 2 ^ 56 → 0 < m) →
      ItemsCut ver footer (.block st b data :: items) [.block (b.carried ver) (data.take m) false]
  | unchecked {st : UInt8} {b : BlockDetails} {data : Bytes} (items : List SItem) : footer = true →
      ItemsCut ver footer (.block st b data :: items) [.block (b.carried ver) data true]
  | next {items : List SItem} {obs : List RObs} (i : SItem) : ItemsCut ver footer items obs →
      ItemsCut ver footer (i :: items) (i.obs ver footer ++ obs)

theorem ItemsCut.cutOf {ver : Int} {footer : Bool} {items : List SItem} {obs : List RObs} (h : ItemsCut ver footer items obs) :
    CutOf (items.flatMap (SItem.obs ver footer)) obs := by
  induction h with
  | stop => exact cutOf_nil _
  | @part st b data m items hm _ =>
    refine .inr ⟨[], b.carried ver, data, m, ⟨(if footer then [.verified (b.carried ver)] else []) ++ items.flatMap (SItem.obs ver footer), ?_⟩, hm, rfl⟩
    rw [List.flatMap_cons, SItem.obs]; simp
  | @unchecked st b data items _ =>
    refine .inl ⟨(if footer then [.verified (b.carried ver)] else []) ++ items.flatMap (SItem.obs ver footer), ?_⟩
    rw [List.flatMap_cons, SItem.obs]; simp
  | next i _ ih =>
    rw [List.flatMap_cons]
    exact ih.append _

/-- The reference parser on the beginning of a block and of what follows it. -/
theorem headerBytes_length_lt (ver : Int) (b : BlockDetails) (h : b.fileName.length ≤ 204) (hf : b.fileSize < 2 ^ 56) :
    (headerBytes ver b).length ≤ 251 := by
  have l1 := nnBytes_length_le b.seqId
  have l2 := nnBytes_length_le b.dataSize
  have l3 := nnBytes_length_le b.offset
  have l4 : (nnBytes b.fileSize).length ≤ 8 := encodeVarU64Str_length_lt 8 b.fileSize.toNat (by omega) (by omega) (by omega)
  have l5 := nnBytes_length_le b.prevSeqId
  have hs := encodeVarU64Str_length_lt 2 b.fileName.length (by omega) (by omega) (by omega)
  unfold headerBytes strBytes
  simp only [List.length_append]
  split
  · simp only [List.length_append, List.length_singleton]
    split
    · omega
    · simp only [List.length_nil]; omega
  · simp only [List.length_nil]; omega

theorem specCmd_block_cut (crc : Int → UInt8 → Int) (hcrc : ∀ x b, int32Min ≤ crc x b ∧ crc x b ≤ int32Max)
    (id : Bytes) (ver hver : Int) (hv : hver ≥ 13 ↔ ver ≥ 13)
    (footer : Bool) (status : UInt8) (b : BlockDetails) (hb : b.WF) (hn : b.fileName.length ≤ 204) (data : Bytes)
    (hd : (data.length : Int) = b.dataSize)
    (hdel : b.allocationStatus = TO_BE_DELETED → b.fileSize = 0 ∧ b.dataSize = 0)
    (rest : Bytes) (slack p : Nat) (h256 : 256 ≤ p) (hp : p < (blockBytes hver crc footer status b data ++ rest).length) :
    (∃ obs, specCmd crc id ver footer ((blockBytes hver crc footer status b data ++ rest).take p) slack =
        (obs, .stop (.reconnect eSOCKET_READ_ERROR)) ∧ p < (blockBytes hver crc footer status b data).length + 256 ∧
        (obs = [.block (b.carried ver) data true] ∧ footer = true ∨
          ∃ m, m < data.length ∧ (b.fileSize < 2 ^ 56 → 0 < m) ∧ obs = [.block (b.carried ver) (data.take m) false])) ∨
    (∃ sl, sl ≤ 11 ∧ (blockBytes hver crc footer status b data).length ≤ p ∧
      specCmd crc id ver footer ((blockBytes hver crc footer status b data ++ rest).take p) slack =
      (.block (b.carried ver) data true :: (if footer then [.verified (b.carried ver)] else []),
        .next (rest.take (p - (blockBytes hver crc footer status b data).length)) ver footer sl)) := by
  obtain ⟨q1, q2⟩ := headerBytes_length hver b hn
  have q3 := fun h => headerBytes_length_lt hver b hn h
  have key := specCmd_file crc id ver hver hv footer status b hb hn hdel
  have h2 := leBytes_length 2 (4 + ((headerBytes hver b).length : Int))
  have hhl : ([FILE_CMD, status] ++ leBytes 2 (4 + ((headerBytes hver b).length : Int)) ++ headerBytes hver b).length =
      4 + (headerBytes hver b).length := by
    simp only [List.length_append, List.length_cons, List.length_nil, h2]
  have hzl := encodeVarU64Str_length_le (zigzag (data.foldl crc 0))
  unfold blockBytes at hp ⊢
  generalize hHH : ([FILE_CMD, status] ++ leBytes 2 (4 + ((headerBytes hver b).length : Int)) ++ headerBytes hver b) = HH at *
  generalize (headerBytes hver b).length = hl at *
  have ht : b.dataSize.toNat = data.length := by omega
  rw [ht] at key
  generalize hF : (if footer then FOOTER_CMD :: encodeVarU64Str (zigzag (data.foldl crc 0)) else []) = F at hp ⊢
  have hFl : F.length ≤ 11 := by
    rw [← hF]; split
    · rw [List.length_cons]; omega
    · simp
  have htake : (HH ++ data ++ F ++ rest).take p = HH ++ (data ++ (F ++ rest)).take (p - HH.length) := by
    rw [List.append_assoc, List.append_assoc, List.take_append, List.take_of_length_le (by omega)]
  simp only [List.length_append] at hp
  have hRl : ((data ++ (F ++ rest)).take (p - HH.length)).length = p - HH.length := by
    rw [List.length_take]; simp only [List.length_append]; omega
  have key1 := key ((data ++ (F ++ rest)).take (p - HH.length)) (by rw [hRl]; omega) slack
  rw [htake]
  simp only [List.length_append]
  by_cases c1 : p - HH.length < data.length
  · refine .inl ⟨_, by rw [key1, if_pos (by rw [hRl]; omega)], by omega, .inr ⟨p - HH.length, c1, fun h => ?_, ?_⟩⟩
    · have := q3 h
      omega
    rw [List.take_append_of_le_length (by omega)]
  · rw [if_neg (by rw [hRl]; omega)] at key1
    have e1 : ((data ++ (F ++ rest)).take (p - HH.length)).take data.length = data := by
      rw [List.take_take, Nat.min_eq_left (by omega), List.take_left' rfl]
    have e2 : ((data ++ (F ++ rest)).take (p - HH.length)).drop data.length = (F ++ rest).take (p - HH.length - data.length) := by
      rw [List.take_append, List.take_of_length_le (by omega), List.drop_left' rfl]
    rw [e1, e2] at key1
    by_cases hf : footer = true
    · rw [if_pos hf] at key1
      rw [if_pos hf] at hF
      have hl2 : ((F ++ rest).take (p - HH.length - data.length)).length = p - HH.length - data.length := by
        rw [List.length_take, List.length_append]; omega
      by_cases c2 : p - HH.length - data.length < 256
      · have hs : specFooter crc (b.carried ver) data ver ((F ++ rest).take (p - HH.length - data.length)) =
            ([], .stop (.reconnect eSOCKET_READ_ERROR)) := by
          unfold specFooter
          rw [if_pos (by omega)]
        rw [hs] at key1
        exact .inl ⟨_, key1, by omega, .inl ⟨rfl, hf⟩⟩
      · have e3 : (F ++ rest).take (p - HH.length - data.length) = F ++ rest.take (p - HH.length - data.length - F.length) := by
          rw [List.take_append, List.take_of_length_le (by omega)]
        have hs := specFooter_right crc hcrc (b.carried ver) data ver (rest.take (p - HH.length - data.length - F.length))
          (by rw [e3, List.length_append, ← hF, List.length_cons] at hl2; rw [← hF, List.length_cons]; omega)
        rw [hF] at hs
        rw [e3, hs] at key1
        refine .inr ⟨1 + (encodeVarU64Str (zigzag (data.foldl crc 0))).length, by omega, by omega, ?_⟩
        rw [key1, if_pos hf, hf]
        simp only [show p - (HH.length + data.length + F.length) = p - HH.length - data.length - F.length by omega]
    · rw [if_neg hf] at key1
      rw [if_neg hf] at hF
      subst hF
      refine .inr ⟨0, by omega, by simp only [List.length_nil]; omega, ?_⟩
      rw [key1, if_neg hf]
      simp only [List.nil_append, List.length_nil, show p - (HH.length + data.length + 0) = p - HH.length - data.length by omega]

theorem SItem.bytes_len {hver : Int} {crc : Int → UInt8 → Int} {footer : Bool} {t : Int} :
    (SItem.bytes hver crc footer (.size t)).length ≤ 11 := by
  have := nnBytes_length_le t
  simp only [SItem.bytes, List.length_cons]; omega

/-- The reference parser on the beginning of what a sender thread writes behind its settings. -/
theorem sendItems_cut (crc : Int → UInt8 → Int) (hcrc : ∀ x b, int32Min ≤ crc x b ∧ crc x b ≤ int32Max)
    (id : Bytes) (ver hver : Int) (hv : hver ≥ 13 ↔ ver ≥ 13) (footer : Bool) (hbuf : Bytes)
    (hhb : (hbuf.length : Int) = kMaxHeader) (status : UInt8) (n total : Int) (hn : NN n) (ht : NN total) :
    ∀ (items : List SItem) (buf : Bytes) (slack fuel : Nat), 8192 ≤ buf.length → (∀ i ∈ items, i.WF) →
      slack + 11 * sizeCount items ≤ 3000 → sizeCount items ≤ 200 → items.length < fuel →
      ∃ d, sendItems ver hver crc footer hbuf status n total items buf =
          .ok (items.flatMap (SItem.bytes hver crc footer) ++ d) ∧ d.length = 256 ∧
        ∀ p, p < (items.flatMap (SItem.bytes hver crc footer) ++ d).length → ∃ obs,
          specRun crc id fuel ver footer ((items.flatMap (SItem.bytes hver crc footer) ++ d).take p) slack =
            some (obs, .reconnect eSOCKET_READ_ERROR) ∧
          ItemsCut ver footer items obs ∧
          ∀ k, ((items.take k).flatMap (SItem.bytes hver crc footer)).length + 256 ≤ p →
            (items.take k).flatMap (SItem.obs ver footer) <+: obs := by
  intro items
  induction items with
  | nil =>
    intro buf slack fuel hb _ _ _ hfu
    obtain ⟨fuel, rfl⟩ : ∃ k, fuel = k + 1 := ⟨fuel - 1, by omega⟩
    obtain ⟨buf', pad, e, hl⟩ := sendDoneMsg_eq ver status n total hn ht buf hb
    refine ⟨_, by rw [sendItems, e]; rfl, hl, ?_⟩
    intro p hp
    rw [List.flatMap_nil, List.nil_append, hl] at hp
    rw [List.flatMap_nil, List.nil_append]
    refine ⟨[], ?_, .stop _, by simp⟩
    rw [specRun, specCmd_short crc id ver footer _ slack (by rw [List.length_take]; omega)]
  | cons i items ih =>
    intro buf slack fuel hb hwf hsl hsc hfu
    obtain ⟨fuel, rfl⟩ : ∃ k, fuel = k + 1 := ⟨fuel - 1, by omega⟩
    simp only [List.length_cons] at hfu
    have hi := hwf i (by simp)
    have hw' : ∀ j ∈ items, j.WF := fun j hj => hwf j (by simp [hj])
    have hshort : ∀ (d : Bytes) (p : Nat), p < 256 → ∃ obs,
          specRun crc id (fuel + 1) ver footer (((i :: items).flatMap (SItem.bytes hver crc footer) ++ d).take p) slack =
            some (obs, .reconnect eSOCKET_READ_ERROR) ∧
          ItemsCut ver footer (i :: items) obs ∧
          ∀ k, (((i :: items).take k).flatMap (SItem.bytes hver crc footer)).length + 256 ≤ p →
            ((i :: items).take k).flatMap (SItem.obs ver footer) <+: obs := by
      intro d p hp
      refine ⟨[], ?_, .stop _, fun k hk => by omega⟩
      rw [specRun, specCmd_short crc id ver footer _ slack (by rw [List.length_take]; omega)]
    cases i with
    | size t =>
      have hcnt : sizeCount (.size t :: items) = sizeCount items + 1 := by simp [sizeCount]
      obtain ⟨buf', e, hbl⟩ := sendSizeMsg_eq t hi buf hb
      have hq := nnBytes_length_le t
      obtain ⟨d, es, hd, hr⟩ := ih buf' (slack + (1 + (nnBytes t).length)) fuel (by omega) hw' (by omega) (by omega) (by omega)
      refine ⟨d, by rw [sendItems, e]; simp only [es]; simp [SItem.bytes], hd, ?_⟩
      intro p hp
      by_cases h256 : p < 256
      · exact hshort d p h256
      · rw [List.flatMap_cons, List.append_assoc, List.length_append] at hp
        have hbl1 : (SItem.bytes hver crc footer (.size t)).length = 1 + (nnBytes t).length := by
          simp only [SItem.bytes, List.length_cons]; omega
        obtain ⟨obs, h1, h2, h3⟩ := hr (p - (1 + (nnBytes t).length)) (by omega)
        refine ⟨.size t :: obs, ?_, .next (.size t) h2, ?_⟩
        · have htk : ((SItem.size t :: items).flatMap (SItem.bytes hver crc footer) ++ d).take p =
              SIZE_CMD :: (nnBytes t ++ (items.flatMap (SItem.bytes hver crc footer) ++ d).take (p - (1 + (nnBytes t).length))) := by
            rw [List.flatMap_cons, List.append_assoc, List.take_append, hbl1, List.take_of_length_le (by omega)]
            rfl
          rw [htk, specRun, specCmd_size crc id ver footer t hi _ ?_ slack]
          · simp only
            rw [if_neg (by omega), h1]
            rfl
          · rw [List.length_take]; omega
        · intro k hk
          cases k with
          | zero => simp
          | succ k =>
            rw [List.take_succ_cons, List.flatMap_cons, List.length_append, hbl1] at hk
            rw [List.take_succ_cons, List.flatMap_cons]
            exact (List.prefix_append_right_inj [RObs.size t]).2 (h3 k (by omega))
    | block st b data =>
      have hcnt : sizeCount (.block st b data :: items) = sizeCount items := by simp [sizeCount]
      obtain ⟨h1, h2, h3, h4⟩ := hi
      have hrange : int32Min ≤ data.foldl crc 0 ∧ data.foldl crc 0 ≤ int32Max := by
        rcases List.eq_nil_or_concat data with h | ⟨d, x, h⟩
        · rw [h, List.foldl_nil]; decide
        · rw [h, List.concat_eq_append, List.foldl_append]; exact hcrc _ _
      have hmsg : sendBlockMsg hver crc footer st b data hbuf = .ok (blockBytes hver crc footer st b data) := by
        unfold sendBlockMsg blockBytes
        rw [sendHeaderMsg_eq hver st b h1 h2 hbuf hhb, sendFooterMsg_eq _ hrange hbuf hhb]
        by_cases hf : footer = true
        · simp [hf]
        · simp [hf]
      obtain ⟨d, es, hd, _⟩ := ih buf 11 fuel hb hw' (by omega) (by omega) (by omega)
      refine ⟨d, by rw [sendItems, hmsg]; simp only [es]; simp [SItem.bytes], hd, ?_⟩
      intro p hp
      by_cases h256 : p < 256
      · exact hshort d p h256
      · have hS : (SItem.block st b data :: items).flatMap (SItem.bytes hver crc footer) ++ d =
            blockBytes hver crc footer st b data ++ (items.flatMap (SItem.bytes hver crc footer) ++ d) := by
          rw [List.flatMap_cons, List.append_assoc]; rfl
        rw [hS] at hp ⊢
        rcases specCmd_block_cut crc hcrc id ver hver hv footer st b h1 h2 data h3 h4
          (items.flatMap (SItem.bytes hver crc footer) ++ d) slack p (by omega) hp with
          ⟨obs, k1, k2, k3⟩ | ⟨sl, k1, k2, k3⟩
        · refine ⟨obs, by rw [specRun, k1], ?_, ?_⟩
          · rcases k3 with ⟨rfl, hf⟩ | ⟨m, hm, hm0, rfl⟩
            · exact .unchecked _ hf
            · exact .part _ hm hm0
          · intro k hk
            cases k with
            | zero => simp
            | succ k =>
              rw [List.take_succ_cons, List.flatMap_cons, List.length_append] at hk
              simp only [SItem.bytes] at hk
              omega
        · obtain ⟨d', es', hd', hr⟩ := ih buf sl fuel hb hw' (by omega) (by omega) (by omega)
          rw [es] at es'
          have hdd : d = d' := by
            have := Except.ok.inj es'
            exact List.append_cancel_left this
          subst hdd
          rw [List.length_append] at hp
          obtain ⟨obs, j1, j2, j3⟩ := hr (p - (blockBytes hver crc footer st b data).length) (by omega)
          refine ⟨_, by rw [specRun, k3]; simp only; rw [if_neg (by omega), j1], ?_, ?_⟩
          · exact .next (.block st b data) j2
          · intro k hk
            cases k with
            | zero => simp
            | succ k =>
              rw [List.take_succ_cons, List.flatMap_cons, List.length_append] at hk
              rw [List.take_succ_cons, List.flatMap_cons, SItem.obs]
              simp only [SItem.bytes] at hk
              exact (List.prefix_append_right_inj _).2 (j3 k (by omega))

end Wdt
