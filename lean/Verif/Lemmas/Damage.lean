import Verif.Model.Damage
import Verif.Props.BrokenConn
import Verif.Props.Crc

/-! Lemmas for C110. -/

namespace Wdt

/-- The header of a block on the wire. -/
def headBytes (hver : Int) (st : UInt8) (b : BlockDetails) : Bytes :=
  [FILE_CMD, st] ++ leBytes 2 (4 + (headerBytes hver b).length) ++ headerBytes hver b

theorem headBytes_length (hver : Int) (st : UInt8) (b : BlockDetails) :
    (headBytes hver st b).length = 4 + (headerBytes hver b).length := by
  have h2 := leBytes_length 2 (4 + ((headerBytes hver b).length : Int))
  unfold headBytes
  simp only [List.length_append, List.length_cons, List.length_nil, h2]

/-- A wrong checksum. -/
theorem specFooter_wrong (crc : Int → UInt8 → Int) (b : BlockDetails) (data : Bytes) (ver sum : Int)
    (hs : int32Min ≤ sum ∧ sum ≤ int32Max) (hne : data.foldl crc 0 ≠ sum) (rest : Bytes)
    (hr : 256 ≤ 1 + (encodeVarU64Str (zigzag sum)).length + rest.length) :
    specFooter crc b data ver ((FOOTER_CMD :: encodeVarU64Str (zigzag sum)) ++ rest) =
      ([], .stop (.reconnect eCHECKSUM_MISMATCH)) := by
  unfold specFooter
  have q := encodeVarU64Str_length_le (zigzag sum)
  rw [if_neg (by simp only [List.length_append, List.length_cons]; omega), if_neg (by simp [FOOTER_CMD])]
  have pz := parses_decodeInt32 sum hs.1 hs.2
  generalize encodeVarU64Str (zigzag sum) = Z at *
  have w1 := window [FOOTER_CMD] Z rest 11 (by simp only [List.length_singleton]; omega)
  have hS : FOOTER_CMD :: Z ++ rest = [FOOTER_CMD] ++ (Z ++ rest) := rfl
  rw [hS, show (1 : Nat) = [FOOTER_CMD].length from rfl, w1, pz]
  simp only [ne_eq, hne, not_false_eq_true, if_true]

/-- What is observed of items and of a damaged block behind them when the connection breaks or
the damage is noticed. -/
def DamCut (ver : Int) (pre : List SItem) (b : BlockDetails) (data' : Bytes) (obs : List RObs) : Prop :=
  ItemsCut ver true pre obs ∨
    ∃ m fl, obs = pre.flatMap (SItem.obs ver true) ++ [.block (b.carried ver) (data'.take m) fl]

theorem DamCut.cons {ver : Int} {pre : List SItem} {b : BlockDetails} {data' : Bytes} {obs : List RObs}
    (h : DamCut ver pre b data' obs) (i : SItem) : DamCut ver (i :: pre) b data' (i.obs ver true ++ obs) := by
  rcases h with h | ⟨m, fl, rfl⟩
  · exact .inl (.next i h)
  · exact .inr ⟨m, fl, by rw [List.flatMap_cons, List.append_assoc]⟩

/-- The reference parser on the beginning of items, a damaged block and anything behind it. -/
theorem items_damaged (crc : Int → UInt8 → Int) (hcrc : ∀ x b, int32Min ≤ crc x b ∧ crc x b ≤ int32Max)
    (id : Bytes) (ver hver : Int) (hv : hver ≥ 13 ↔ ver ≥ 13)
    (st : UInt8) (b : BlockDetails) (hb : b.WF) (hbn : b.fileName.length ≤ 204)
    (hdel : b.allocationStatus = TO_BE_DELETED → b.fileSize = 0 ∧ b.dataSize = 0)
    (data data' R : Bytes) (hd : (data'.length : Int) = b.dataSize) (hne : data'.foldl crc 0 ≠ data.foldl crc 0) :
    ∀ (pre : List SItem) (slack fuel p : Nat), (∀ i ∈ pre, i.WF) → slack + 11 * sizeCount pre ≤ 3000 → sizeCount pre ≤ 200 → pre.length < fuel →
      p < (pre.flatMap (SItem.bytes hver crc true) ++
        (headBytes hver st b ++ (data' ++ ((FOOTER_CMD :: encodeVarU64Str (zigzag (data.foldl crc 0))) ++ R)))).length →
      ∃ obs code, specRun crc id fuel ver true ((pre.flatMap (SItem.bytes hver crc true) ++
        (headBytes hver st b ++ (data' ++ ((FOOTER_CMD :: encodeVarU64Str (zigzag (data.foldl crc 0))) ++ R)))).take p) slack =
          some (obs, .reconnect code) ∧ DamCut ver pre b data' obs := by
  intro pre
  induction pre with
  | nil =>
    intro slack fuel p _ _ _ hfu hp
    obtain ⟨fuel, rfl⟩ : ∃ k, fuel = k + 1 := ⟨fuel - 1, by omega⟩
    rw [List.flatMap_nil, List.nil_append] at hp ⊢
    by_cases h256 : p < 256
    · refine ⟨[], eSOCKET_READ_ERROR, ?_, .inl (.stop _)⟩
      rw [specRun, specCmd_short crc id ver true _ slack (by rw [List.length_take]; omega)]
    · have hhl := headBytes_length hver st b
      obtain ⟨q1, q2⟩ := headerBytes_length hver b hbn
      have hrange : int32Min ≤ data.foldl crc 0 ∧ data.foldl crc 0 ≤ int32Max := by
        rcases List.eq_nil_or_concat data with h | ⟨d, x, h⟩
        · rw [h, List.foldl_nil]; decide
        · rw [h, List.concat_eq_append, List.foldl_append]; exact hcrc _ _
      have hw := specFooter_wrong crc (b.carried ver) data' ver _ hrange hne
      have hZ := encodeVarU64Str_length_le (zigzag (data.foldl crc 0))
      have hFl : (FOOTER_CMD :: encodeVarU64Str (zigzag (data.foldl crc 0))).length =
        1 + (encodeVarU64Str (zigzag (data.foldl crc 0))).length := by rw [List.length_cons]; omega
      generalize hF : FOOTER_CMD :: encodeVarU64Str (zigzag (data.foldl crc 0)) = F at *
      have htake : (headBytes hver st b ++ (data' ++ (F ++ R))).take p =
          headBytes hver st b ++ (data' ++ (F ++ R)).take (p - (headBytes hver st b).length) := by
        rw [List.take_append, List.take_of_length_le (by omega)]
      simp only [List.length_append] at hp
      have hTl : ((data' ++ (F ++ R)).take (p - (headBytes hver st b).length)).length = p - (headBytes hver st b).length := by
        rw [List.length_take]; simp only [List.length_append]; omega
      have key : specCmd crc id ver true (headBytes hver st b ++ (data' ++ (F ++ R)).take (p - (headBytes hver st b).length)) slack = _ :=
        specCmd_file crc id ver hver hv true st b hb hbn hdel ((data' ++ (F ++ R)).take (p - (headBytes hver st b).length))
          (by rw [hTl]; omega) slack
      rw [htake, specRun, key]
      by_cases c1 : p - (headBytes hver st b).length < data'.length
      · rw [if_pos (by rw [hTl]; omega)]
        refine ⟨_, _, rfl, .inr ⟨p - (headBytes hver st b).length, false, ?_⟩⟩
        rw [List.take_append_of_le_length (by omega)]
        rfl
      · rw [if_neg (by rw [hTl]; omega), if_pos rfl]
        have ht : b.dataSize.toNat = data'.length := by omega
        have e1 : ((data' ++ (F ++ R)).take (p - (headBytes hver st b).length)).take data'.length = data' := by
          rw [List.take_take, Nat.min_eq_left (by omega), List.take_left' rfl]
        have e2 : ((data' ++ (F ++ R)).take (p - (headBytes hver st b).length)).drop data'.length =
            (F ++ R).take (p - (headBytes hver st b).length - data'.length) := by
          rw [List.take_append, List.take_of_length_le (by omega), List.drop_left' rfl]
        rw [ht, e1, e2]
        generalize hj : p - (headBytes hver st b).length - data'.length = j
        have hobs : DamCut ver [] b data' [.block (b.carried ver) data' true] :=
          .inr ⟨data'.length, true, by rw [List.take_length]; rfl⟩
        by_cases c2 : j < 256
        · have hs : specFooter crc (b.carried ver) data' ver ((F ++ R).take j) = ([], .stop (.reconnect eSOCKET_READ_ERROR)) := by
            unfold specFooter
            rw [if_pos (by rw [List.length_take]; omega)]
          rw [hs]
          exact ⟨_, _, rfl, hobs⟩
        · have e3 : (F ++ R).take j = F ++ R.take (j - F.length) := by
            rw [List.take_append, List.take_of_length_le (by omega)]
          have hs := hw (R.take (j - F.length)) (by rw [List.length_take]; omega)
          rw [e3, hs]
          exact ⟨_, _, rfl, hobs⟩
  | cons i pre ih =>
    intro slack fuel p hwf hsl hsc hfu hp
    obtain ⟨fuel, rfl⟩ : ∃ k, fuel = k + 1 := ⟨fuel - 1, by omega⟩
    simp only [List.length_cons] at hfu
    have hi := hwf i (by simp)
    have hw' : ∀ j ∈ pre, j.WF := fun j hj => hwf j (by simp [hj])
    generalize hX : headBytes hver st b ++ (data' ++ ((FOOTER_CMD :: encodeVarU64Str (zigzag (data.foldl crc 0))) ++ R)) = X at *
    by_cases h256 : p < 256
    · refine ⟨[], eSOCKET_READ_ERROR, ?_, .inl (.stop _)⟩
      rw [specRun, specCmd_short crc id ver true _ slack (by rw [List.length_take]; omega)]
    · rw [List.flatMap_cons, List.append_assoc] at hp ⊢
      cases i with
      | size t =>
        have hcnt : sizeCount (.size t :: pre) = sizeCount pre + 1 := by simp [sizeCount]
        have hq := nnBytes_length_le t
        have hbl1 : (SItem.bytes hver crc true (.size t)).length = 1 + (nnBytes t).length := by
          simp only [SItem.bytes, List.length_cons]; omega
        rw [List.length_append] at hp
        obtain ⟨obs, code, h1, h2⟩ := ih (slack + (1 + (nnBytes t).length)) fuel (p - (1 + (nnBytes t).length)) hw' (by omega) (by omega) (by omega)
          (by omega)
        refine ⟨_, code, ?_, h2.cons (.size t)⟩
        have htk : (SItem.bytes hver crc true (.size t) ++ (pre.flatMap (SItem.bytes hver crc true) ++ X)).take p =
            SIZE_CMD :: (nnBytes t ++ (pre.flatMap (SItem.bytes hver crc true) ++ X).take (p - (1 + (nnBytes t).length))) := by
          rw [List.take_append, hbl1, List.take_of_length_le (by omega)]
          rfl
        rw [htk, specRun, specCmd_size crc id ver true t hi _ ?_ slack]
        · simp only
          rw [if_neg (by omega), h1]
          rfl
        · rw [List.length_take]; omega
      | block st0 b0 data0 =>
        have hcnt : sizeCount (.block st0 b0 data0 :: pre) = sizeCount pre := by simp [sizeCount]
        obtain ⟨h1, h2, h3, h4⟩ := hi
        have hp' : p < (blockBytes hver crc true st0 b0 data0 ++ (pre.flatMap (SItem.bytes hver crc true) ++ X)).length := hp
        show ∃ obs code, specRun crc id (fuel + 1) ver true
          ((blockBytes hver crc true st0 b0 data0 ++ (pre.flatMap (SItem.bytes hver crc true) ++ X)).take p) slack = _ ∧ _
        rcases specCmd_block_cut crc hcrc id ver hver hv true st0 b0 h1 h2 data0 h3 h4
          (pre.flatMap (SItem.bytes hver crc true) ++ X) slack p (by omega) hp' with ⟨obs, k1, k2, k3⟩ | ⟨sl, k1, k2, k3⟩
        · refine ⟨obs, eSOCKET_READ_ERROR, by rw [specRun, k1], .inl ?_⟩
          rcases k3 with ⟨rfl, hf⟩ | ⟨m, hm, hm0, rfl⟩
          · exact .unchecked _ hf
          · exact .part _ hm hm0
        · rw [List.length_append] at hp'
          obtain ⟨obs, code, j1, j2⟩ := ih sl fuel (p - (blockBytes hver crc true st0 b0 data0).length) hw' (by omega) (by omega) (by omega) (by omega)
          refine ⟨_, code, by rw [specRun, k3]; simp only; rw [if_neg (by omega), j1], ?_⟩
          exact j2.cons (.block st0 b0 data0)

/-- The same with the settings, for a receiver thread. -/
theorem receive_damaged (frag : List Int → Nat) (crc : Int → UInt8 → Int)
    (hcrc : ∀ x b, int32Min ≤ crc x b ∧ crc x b ≤ int32Max)
    (ver hver rver : Int) (hver1 : 0 ≤ ver ∧ ver ≤ int32Max) (hv : hver ≥ 13 ↔ ver ≥ 13)
    (hacc : receiverOnSettings ver rver = (ver, .accept))
    (st : Settings) (hst : st.WF) (hid : st.transferId.length ≤ 200) (hch : st.sendFileChunks = false)
    (hfoot : ver ≥ 12) (hck : st.enableChecksum = true)
    (pre : List SItem) (hit : ∀ i ∈ pre, i.WF) (hsz : sizeCount pre ≤ 200)
    (bst : UInt8) (b : BlockDetails) (data : Bytes) (hb : (SItem.block bst b data).WF)
    (data' R : Bytes) (hl : data'.length = data.length) (hne : data'.foldl crc 0 ≠ data.foldl crc 0)
    (rbuf : Bytes) (hrb : 8192 ≤ rbuf.length) (footer0 : Bool) (fuel : Nat) (hfu : pre.length + 1 < fuel) (p : Nat) :
    ∃ obs code, receive frag crc st.transferId fuel (.fresh rbuf
        (((SETTINGS_CMD :: settingsBytes ver st) ++ (pre.flatMap (SItem.bytes hver crc true) ++
          (headBytes hver bst b ++ (data' ++ ((FOOTER_CMD :: encodeVarU64Str (zigzag (data.foldl crc 0))) ++ R))))).take p) rver footer0) =
          .ok (obs, .reconnect code) ∧
      (obs = [] ∨ ∃ obs', obs = .settings (st.carried ver) :: obs' ∧ DamCut ver pre b data' obs') := by
  obtain ⟨q1, q2⟩ := settingsBytes_length ver st hid
  obtain ⟨h1, h2, h3, h4⟩ := hb
  obtain ⟨fuel, rfl⟩ : ∃ k, fuel = k + 1 := ⟨fuel - 1, by omega⟩
  generalize hY : (SETTINGS_CMD :: settingsBytes ver st) ++ (pre.flatMap (SItem.bytes hver crc true) ++
          (headBytes hver bst b ++ (data' ++ ((FOOTER_CMD :: encodeVarU64Str (zigzag (data.foldl crc 0))) ++ R)))) = Y
  -- one more byte that does not arrive
  obtain ⟨p', hp', htk⟩ : ∃ p', p' < (Y ++ [(0 : UInt8)]).length ∧ Y.take p = (Y ++ [(0 : UInt8)]).take p' := by
    by_cases h : p < Y.length
    · exact ⟨p, by rw [List.length_append]; omega, by rw [List.take_append_of_le_length (by omega)]⟩
    · exact ⟨Y.length, by simp, by rw [List.take_left' rfl, List.take_of_length_le (by omega)]⟩
  rw [htk]
  by_cases h256 : p' < 256
  · refine ⟨[], eSOCKET_READ_ERROR, ?_, .inl rfl⟩
    apply C34_parse_partial frag crc st.transferId rbuf _ rver footer0 hrb
    rw [specRun, specCmd_short _ _ _ _ _ _ (by rw [List.length_take]; omega)]
  · have hY' : Y ++ [(0 : UInt8)] = (SETTINGS_CMD :: settingsBytes ver st) ++ (pre.flatMap (SItem.bytes hver crc true) ++
          (headBytes hver bst b ++ (data' ++ ((FOOTER_CMD :: encodeVarU64Str (zigzag (data.foldl crc 0))) ++ (R ++ [(0 : UInt8)]))))) := by
      rw [← hY]; simp
    rw [hY'] at hp' ⊢
    have hck' : (st.carried ver).enableChecksum = true := by
      unfold Settings.carried
      split
      · exact hck
      · omega
    have hk := fun p hp => items_damaged crc hcrc st.transferId ver hver hv bst b h1 h2 h4 data data' (R ++ [(0 : UInt8)])
      (by omega) hne pre (1 + (settingsBytes ver st).length) fuel p hit (by omega) hsz (by omega) hp
    generalize hX : pre.flatMap (SItem.bytes hver crc true) ++
          (headBytes hver bst b ++ (data' ++ ((FOOTER_CMD :: encodeVarU64Str (zigzag (data.foldl crc 0))) ++ (R ++ [(0 : UInt8)])))) = X at *
    rw [List.length_append, List.length_cons] at hp'
    obtain ⟨obs, code, k1, k2⟩ := hk (p' - (1 + (settingsBytes ver st).length)) (by omega)
    refine ⟨.settings (st.carried ver) :: obs, code, ?_, .inr ⟨obs, rfl, k2⟩⟩
    apply C34_parse_partial frag crc st.transferId rbuf _ rver footer0 hrb
    have htk' : ((SETTINGS_CMD :: settingsBytes ver st) ++ X).take p' =
        SETTINGS_CMD :: (settingsBytes ver st ++ X.take (p' - (1 + (settingsBytes ver st).length))) := by
      rw [List.take_append, List.take_of_length_le (by rw [List.length_cons]; omega), List.length_cons,
        Nat.add_comm (settingsBytes ver st).length 1]
      rfl
    rw [htk', specRun, specCmd_settings crc ver rver hver1 hacc st hst hid hch footer0 _ (by rw [List.length_take]; omega)]
    simp only [hck']
    rw [if_neg (by omega), k1]
    rfl

/-- Effect of a connection with checksums that breaks or is given up: `done` counts as received and was written
as it is, and more may have been written in the places of the others. -/
structure DamEffect (c : BCfg) (cp cp' : RcvCp) (srcs : List Source) (ws : List (BlockDetails × Bytes))
    (done pend : List Source) (more : List (BlockDetails × Bytes)) : Prop where
  split : srcs = done ++ pend
  count : cp'.numBlocks = cp.numBlocks + done.length
  last : cp.last = none → cp'.last = none
  ws : ws = done.map (wholeWrite c) ++ more
  more : ∀ e ∈ more, ∃ x ∈ pend, e.1 = x.details.carried c.ver ∧ e.2.length ≤ (x.data c.src).length

theorem CutEffect.dam {c : BCfg} {cp cp' : RcvCp} {srcs done pend : List Source} {ws : List (BlockDetails × Bytes)}
    (h : CutEffect c true cp cp' srcs ws done pend) : ∃ more, DamEffect c cp cp' srcs ws done pend more := by
  obtain ⟨h1, h2, h3⟩ := h
  rcases h3 with ⟨a, b⟩ | ⟨_, _, _, a, _⟩ | ⟨more, _, a, b, d⟩
  · refine ⟨[], h1, h2, ?_, by rw [a, List.append_nil], by simp⟩
    intro hn
    rw [b, hn]
    split <;> rfl
  · cases a
  · refine ⟨more, h1, h2, fun _ => d, a, ?_⟩
    intro e he
    obtain ⟨x, hx, m, rfl⟩ := b e he
    exact ⟨x, hx, rfl, by rw [List.length_take]; omega⟩

theorem dam_effect (c : BCfg) (pre post : List BItem) (st : UInt8) (x : Source) (data' : Bytes)
    (hl : data'.length = (x.data c.src).length) (obs : List RObs) (cp : RcvCp)
    (h : DamCut c.ver (pre.map (BItem.sent c.src)) x.details data' obs) :
    ∃ done pend more, DamEffect c cp (obs.foldl (RcvCp.step true) cp) ((pre ++ .file st x :: post).filterMap BItem.source)
      (obs.filterMap RObs.write) done pend more := by
  have hsp : (pre ++ .file st x :: post).filterMap BItem.source =
      pre.filterMap BItem.source ++ x :: post.filterMap BItem.source := by
    rw [List.filterMap_append]; rfl
  rw [hsp]
  rcases h with h | ⟨m, fl, rfl⟩
  · obtain ⟨done, pend, he⟩ := cut_effect c true pre obs cp h
    obtain ⟨more, h1, h2, h3, h4, h5⟩ := he.dam
    refine ⟨done, pend ++ x :: post.filterMap BItem.source, more, by rw [h1, List.append_assoc], h2, h3, h4, ?_⟩
    intro e he
    obtain ⟨y, hy, k⟩ := h5 e he
    exact ⟨y, List.mem_append_left _ hy, k⟩
  · obtain ⟨f1, f2⟩ := full_effect c true pre cp
    refine ⟨pre.filterMap BItem.source, x :: post.filterMap BItem.source, [(x.details.carried c.ver, data'.take m)], rfl, ?_, ?_, ?_, ?_⟩
    · rw [List.foldl_append, ← f1]
      cases fl <;> rfl
    · intro _
      rw [List.foldl_append]
      cases fl <;> rfl
    · rw [List.filterMap_append, f2]
      rfl
    · intro e he
      rw [List.mem_singleton] at he
      subst he
      exact ⟨x, List.mem_cons_self, rfl, by rw [List.length_take]; omega⟩

/-- The write covers position `p` of file `q`. -/
def WriteCovers (e : BlockDetails × Bytes) (q p : Int) : Prop :=
  e.1.seqId = q ∧ e.1.offset ≤ p ∧ p < e.1.offset + e.2.length

theorem contentAt_append_other (w w' : List (BlockDetails × Bytes)) (q p : Int) (h : ∀ e ∈ w', ¬ WriteCovers e q p) :
    contentAt (w ++ w') q p = contentAt w q p := by
  unfold contentAt
  have : (w'.filter fun e => decide (e.1.seqId = q ∧ e.1.offset ≤ p ∧ p < e.1.offset + e.2.length)) = [] := by
    rw [List.filter_eq_nil_iff]
    intro e he hd
    have hd' : e.1.seqId = q ∧ e.1.offset ≤ p ∧ p < e.1.offset + e.2.length := of_decide_eq_true hd
    exact h e he hd'
  rw [List.filter_append, this, List.append_nil]

theorem contentAt_append_here (w w' : List (BlockDetails × Bytes)) (q p : Int) (h : WrittenAt w' q p) :
    contentAt (w ++ w') q p = contentAt w' q p := by
  unfold contentAt
  have : (w'.filter fun e => decide (e.1.seqId = q ∧ e.1.offset ≤ p ∧ p < e.1.offset + e.2.length)) ≠ [] := by
    intro hn
    rw [List.filter_eq_nil_iff] at hn
    obtain ⟨e, he, hc⟩ := h
    exact hn e he (decide_eq_true hc)
  rw [List.filter_append, List.getLast?_append_of_ne_nil _ this]

/-- Position `p` of file `q` belongs to the source. -/
def InSrc (y : Source) (q p : Int) : Prop := y.seqId = q ∧ y.offset ≤ p ∧ p < y.offset + y.size

theorem ApartSrc.notBoth {a b : Source} (h : ApartSrc a b) {q p : Int} (ha : InSrc a q p) (hb : InSrc b q p) : False := by
  obtain ⟨a1, a2, a3⟩ := ha
  obtain ⟨b1, b2, b3⟩ := hb
  rcases h with h | ⟨_, _, h | h⟩
  · exact h (a1.trans b1.symm)
  · omega
  · omega

theorem Without.inSrc {a b : Source} {r : Int} (w : Without a b r) (h0 : 0 ≤ r) {q p : Int} (h : InSrc b q p) : InSrc a q p := by
  obtain ⟨h1, h2, h3⟩ := h
  have e1 := w.offset
  have e2 := w.size
  exact ⟨w.seqId.symm.trans h1, by omega, by omega⟩

/-- The write has its place in a source of `Q`, whatever it writes there. -/
def PlacedWrite (Q : List Source) (e : BlockDetails × Bytes) : Prop :=
  ∃ x ∈ Q, e.1.fileName = x.name ∧ e.1.seqId = x.seqId ∧ e.1.fileSize = x.fileSize ∧ x.offset ≤ e.1.offset ∧
    e.1.offset + e.1.dataSize = x.offset + x.size ∧ (e.2.length : Int) ≤ e.1.dataSize

/-- `W` are the writes of the blocks that count as received: nothing that was written later, or will be, is in their
places. -/
structure DamInv (c : BCfg) (Q : List Source) (S : BSys) (W : List (BlockDetails × Bytes)) : Prop where
  clean : BrkInv c Q { S with written := W }
  sub : ∀ e ∈ W, e ∈ S.written
  right : ∀ q p, WrittenAt W q p → contentAt S.written q p = (c.src q)[p.toNat]?
  free : ∀ q p, WrittenAt W q p → ∀ y ∈ S.queue, ¬ InSrc y q p
  placed : ∀ e ∈ S.written, PlacedWrite Q e

theorem wholeWrite_covers {c : BCfg} {x : Source} (hs : Sendable c x) {q p : Int} :
    WriteCovers (wholeWrite c x) q p ↔ InSrc x q p := by
  have := hs.data_length
  unfold WriteCovers InSrc wholeWrite
  show x.seqId = q ∧ x.offset ≤ p ∧ p < x.offset + ((x.data c.src).length : Int) ↔ _
  rw [this]

theorem dam_step {c : BCfg} (hck : c.st.enableChecksum = true) {Q : List Source} (hQ : ∀ x ∈ Q, 0 ≤ x.offset) {S : BSys}
    {W : List (BlockDetails × Bytes)} (hi : DamInv c Q S W) {srcs rest done pend : List Source} {more : List (BlockDetails × Bytes)}
    (hp : (srcs ++ rest).Perm S.queue) {cp' : RcvCp} {ws : List (BlockDetails × Bytes)}
    (he : DamEffect c S.cp cp' srcs ws done pend more) :
    ∃ code h' l, setCheckpoint (srcs.foldl (fun h s => (addSource h s).1) S.hist) cp'.msg false = .ok (code, h', l) ∧
      code ≠ .invalid ∧ DamInv c Q ⟨h', cp', S.written ++ ws, rest ++ l.map Prod.snd⟩ (W ++ done.map (wholeWrite c)) := by
  obtain ⟨hb, hsub, hright, hfree, hplaced⟩ := hi
  have hln : cp'.last = none := he.last (hb.lastNone hck)
  have hcut : CutEffect c c.st.enableChecksum S.cp cp' srcs (done.map (wholeWrite c)) done pend := by
    rw [hck]
    exact ⟨he.split, he.count, .inr (.inr ⟨[], rfl, by rw [List.append_nil], by simp, hln⟩)⟩
  obtain ⟨⟨code, h', l⟩, hset⟩ := checkpoint_ok hb hcut
  have hcode : code ≠ .invalid := by
    rintro rfl
    have := (refused_step hb hp hcut hset).1
    rw [hck] at this
    cases this
  refine ⟨code, h', l, hset, hcode, ?_⟩
  have hnew := break_step hb hp hcut hset hcode
  have hback := give_back hb hcut hset hcode
  have hcr := fun x tl hx => credit (x := x) (tl := tl) hb hp hcut hx
  obtain ⟨hsplit, hcount, hlast, hws, hmore⟩ := he
  have hperm : (rest ++ (done ++ pend)).Perm S.queue := by
    rw [← hsplit]
    exact List.perm_append_comm.trans hp
  have hap : (rest ++ (done ++ pend)).Pairwise ApartSrc := (hperm.pairwise_iff ApartSrc.symm).2 hb.apart
  have hmem : ∀ y, y ∈ rest ∨ y ∈ done ∨ y ∈ pend → y ∈ S.queue := by
    intro y hy
    apply hperm.subset
    simp only [List.mem_append]
    exact hy
  rw [List.pairwise_append] at hap
  obtain ⟨hap1, hap2, hap3⟩ := hap
  rw [List.pairwise_append] at hap2
  obtain ⟨hap4, hap5, hap6⟩ := hap2
  -- what is in the queue afterwards was there before and was not received
  have hq : ∀ y ∈ rest ++ l.map Prod.snd, ∀ q p, InSrc y q p → ∃ z, (z ∈ rest ∨ z ∈ pend) ∧ InSrc z q p := by
    intro y hy q p hin
    rcases List.mem_append.1 hy with hy | hy
    · exact ⟨y, .inl hy, hin⟩
    · obtain ⟨e, hel, rfl⟩ := List.mem_map.1 hy
      rcases hback with ⟨_, hln⟩ | ⟨x, tl, l₀, x', b1, b2, b3, b4, b5⟩
      · rw [hln] at hel; cases hel
      · rw [b2] at hel
        rcases List.mem_append.1 hel with hel | hel
        · refine ⟨e.1, .inr ?_, (b4 e hel).inSrc (Int.le_refl 0) hin⟩
          have : e.1 ∈ tl.reverse := by rw [← b3]; exact List.mem_map_of_mem hel
          rw [b1]
          exact List.mem_cons_of_mem _ (List.mem_reverse.1 this)
        · rw [List.mem_singleton] at hel
          subst hel
          exact ⟨x, .inr (by rw [b1]; exact List.mem_cons_self), b5.inSrc (hcr x tl b1).1 hin⟩
  have hmoreIn : ∀ e ∈ more, ∀ q p, WriteCovers e q p → ∃ z ∈ pend, InSrc z q p := by
    intro e hem q p hc
    obtain ⟨z, hz, e1, e2⟩ := hmore e hem
    refine ⟨z, hz, ?_⟩
    have hl := (hb.send z (hmem z (.inr (.inr hz)))).data_length
    obtain ⟨c1, c2, c3⟩ := hc
    rw [e1] at c1 c2 c3
    have c1' : z.seqId = q := c1
    have c2' : z.offset ≤ p := c2
    have c3' : p < z.offset + e.2.length := c3
    exact ⟨c1', c2', by omega⟩
  have hdoneIn : ∀ q p, WrittenAt (done.map (wholeWrite c)) q p → ∃ z ∈ done, InSrc z q p := by
    rintro q p ⟨e, hem, hc⟩
    obtain ⟨z, hz, rfl⟩ := List.mem_map.1 hem
    exact ⟨z, hz, (wholeWrite_covers (hb.send z (hmem z (.inr (.inl hz))))).1 hc⟩
  have hsplitW : ∀ q p, WrittenAt (W ++ done.map (wholeWrite c)) q p →
      WrittenAt W q p ∨ WrittenAt (done.map (wholeWrite c)) q p := by
    rintro q p ⟨e, hem, hc⟩
    rcases List.mem_append.1 hem with h | h
    · exact .inl ⟨e, h, hc⟩
    · exact .inr ⟨e, h, hc⟩
  refine ⟨hnew, ?_, ?_, ?_, ?_⟩
  · intro e hem
    show e ∈ S.written ++ ws
    rw [hws]
    rcases List.mem_append.1 hem with h | h
    · exact List.mem_append_left _ (hsub e h)
    · exact List.mem_append_right _ (List.mem_append_left _ h)
  · intro q p hw
    show contentAt (S.written ++ ws) q p = _
    rw [hws, ← List.append_assoc]
    by_cases hd : WrittenAt (done.map (wholeWrite c)) q p
    · obtain ⟨z, hz, hzin⟩ := hdoneIn q p hd
      rw [contentAt_append_other _ more q p ?_, contentAt_append_here _ _ q p hd]
      · apply contentAt_good (c := c) (Q := Q) hQ _ hd
        intro e hem
        obtain ⟨y, hy, rfl⟩ := List.mem_map.1 hem
        have hyq := hmem y (.inr (.inl hy))
        exact good_full (hb.origin y hyq) (hb.send y hyq)
      · intro e hem hc
        obtain ⟨y, hy, hyin⟩ := hmoreIn e hem q p hc
        exact (hap6 z hz y hy).notBoth hzin hyin
    · have hW := (hsplitW q p hw).resolve_right hd
      rw [contentAt_append_other _ more q p ?_, contentAt_append_other _ _ q p ?_]
      · exact hright q p hW
      · intro e hem hc
        exact hd ⟨e, hem, hc⟩
      · intro e hem hc
        obtain ⟨y, hy, hyin⟩ := hmoreIn e hem q p hc
        exact hfree q p hW y (hmem y (.inr (.inr hy))) hyin
  · intro q p hw y hy hyin
    obtain ⟨z, hz, hzin⟩ := hq y hy q p hyin
    rcases hsplitW q p hw with hW | hd
    · exact hfree q p hW z (hmem z (hz.elim .inl fun h => .inr (.inr h))) hzin
    · obtain ⟨d, hd, hdin⟩ := hdoneIn q p hd
      rcases hz with hz | hz
      · exact (hap3 z hz d (List.mem_append_left _ hd)).notBoth hzin hdin
      · exact (hap6 d hd z hz).notBoth hdin hzin
  · intro e hem
    have hem : e ∈ S.written ++ ws := hem
    rw [hws] at hem
    rcases List.mem_append.1 hem with h | h
    · exact hplaced e h
    · rcases List.mem_append.1 h with h | h
      · obtain ⟨y, hy, rfl⟩ := List.mem_map.1 h
        have hyq := hmem y (.inr (.inl hy))
        obtain ⟨x, hx, g1, g2, g3, g4, g5, g6, _⟩ := good_full (hb.origin y hyq) (hb.send y hyq)
        exact ⟨x, hx, g1, g2, g3, g4, g5, g6⟩
      · obtain ⟨y, hy, e1, e2⟩ := hmore e h
        have hyq := hmem y (.inr (.inr hy))
        obtain ⟨x, hx, r, hr, w⟩ := hb.origin y hyq
        have hl := (hb.send y hyq).data_length
        have o1 := w.offset
        have o2 := w.size
        refine ⟨x, hx, ?_, ?_, ?_, ?_, ?_, ?_⟩ <;> rw [e1]
        · exact w.name
        · exact w.seqId
        · exact w.fileSize
        · show x.offset ≤ y.offset; omega
        · show y.offset + y.size = _; omega
        · show (e.2.length : Int) ≤ y.size; omega

end Wdt
