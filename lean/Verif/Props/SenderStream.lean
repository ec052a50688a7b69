import Verif.Model.SenderStream
import Verif.Props.ReceiverStream
import Verif.Props.Protocol
/-
C34, C45: what a receiver thread extracts from a connection on which a sender
thread wrote without disturbance is what the sender sent.
-/
namespace Wdt

/-! ### Bytes of the messages -/

theorem take_splice (buf : Bytes) (p : Nat) (bs : Bytes) (h : p ≤ buf.length) :
    (splice buf p bs).take (p + bs.length) = buf.take p ++ bs := by
  unfold splice
  have h1 : (buf.take p ++ bs).length = p + bs.length := by simp [Nat.min_eq_left h]
  rw [← h1, List.take_left' rfl]

theorem take_splice_zero (buf bs : Bytes) : (splice buf 0 bs).take bs.length = bs := by
  have := take_splice buf 0 bs (Nat.zero_le _)
  simpa using this

/-- Bytes of the settings. -/
def settingsBytes (ver : Int) (s : Settings) : Bytes :=
  nnBytes ver ++ (nnBytes s.readTimeoutMillis ++ (nnBytes s.writeTimeoutMillis ++
        (strBytes s.transferId ++
          if ver ≥ SETTINGS_FLAG_VERSION then [UInt8.ofNat (settingsFlags s)] else [])))

theorem settingsBytes_length (ver : Int) (s : Settings) (h : s.transferId.length ≤ 200) :
    1 ≤ (settingsBytes ver s).length ∧ (settingsBytes ver s).length ≤ 230 := by
  have l1 := nnBytes_length_le ver
  have l2 := nnBytes_length_le s.readTimeoutMillis
  have l3 := nnBytes_length_le s.writeTimeoutMillis
  have p1 := nnBytes_length_pos ver
  have hs := encodeVarU64Str_length_lt 2 s.transferId.length (by omega) (by omega) (by omega)
  unfold settingsBytes strBytes
  simp only [List.length_append]
  split <;> simp only [List.length_singleton, List.length_nil] <;> omega

theorem sendSettingsMsg_eq (ver : Int) (hver : NN ver) (s : Settings) (hs : s.WF) (hid : s.transferId.length ≤ 200)
    (hc : s.sendFileChunks = false) (buf : Bytes) (hbuf : 8192 ≤ buf.length) :
    ∃ buf', sendSettingsMsg ver s buf = .ok (buf', SETTINGS_CMD :: settingsBytes ver s) ∧
      buf'.length = buf.length := by
  obtain ⟨a1, a2, a3, a4, a5⟩ := hs
  have hle : int32Max ≤ int64Max := by decide
  have hk : kMaxSettings = 1056 := rfl
  have hk' : (1056 : Int) ≤ int64Max := by decide
  obtain ⟨q1, q2⟩ := settingsBytes_length ver s hid
  have w := writes_encodeSettings (max := kMaxSettings) (by omega) (by omega) ver s hver ⟨a1, by omega⟩ ⟨a3, by omega⟩
  have hl := splice_length buf 0 [SETTINGS_CMD] (by simp only [List.length_singleton]; omega)
  have w' := (w (splice buf 0 [SETTINGS_CMD]) 1 (by omega) (by omega) (by omega)).1
    (by show 1 + ((settingsBytes ver s).length : Int) ≤ _; omega)
  change encodeSettings ver kMaxSettings s (splice buf 0 [SETTINGS_CMD]) 1 =
    .ok (true, splice (splice buf 0 [SETTINGS_CMD]) 1 (settingsBytes ver s), 1 + ((settingsBytes ver s).length : Int)) at w'
  have e := splice_append buf 0 [SETTINGS_CMD] (settingsBytes ver s) (by simp only [List.length_singleton]; omega)
  unfold sendSettingsMsg
  rw [storeByte_ok _ _ _ (by omega) (by omega)]
  simp only [show (0 : Int).toNat = 0 from rfl, w']
  rw [show splice (splice buf 0 [SETTINGS_CMD]) 1 (settingsBytes ver s) = _ from e, hc]
  refine ⟨splice buf 0 ([SETTINGS_CMD] ++ settingsBytes ver s), ?_,
    splice_length _ _ _ (by simp only [List.length_append, List.length_singleton]; omega)⟩
  have e3 : (if false = true then kMinBufLength else 1 + ((settingsBytes ver s).length : Int)).toNat =
      ([SETTINGS_CMD] ++ settingsBytes ver s).length := by
    simp only [List.length_append, List.length_singleton]; simp; omega
  rw [e3, take_splice_zero]; rfl

theorem sendSizeMsg_eq (total : Int) (ht : NN total) (buf : Bytes) (hbuf : 8192 ≤ buf.length) :
    ∃ buf', sendSizeMsg total buf = .ok (buf', SIZE_CMD :: nnBytes total) ∧ buf'.length = buf.length := by
  have hk : kMaxSize = 11 := rfl
  have hk' : (11 : Int) ≤ int64Max := by decide
  have q2 := nnBytes_length_le total
  have w : Writes kMaxSize (encodeSize kMaxSize total) (nnBytes total) := writes_nn (by omega) (by omega) ht
  have hl := splice_length buf 0 [SIZE_CMD] (by simp only [List.length_singleton]; omega)
  have w' := (w (splice buf 0 [SIZE_CMD]) 1 (by omega) (by omega) (by omega)).1 (by omega)
  have e := splice_append buf 0 [SIZE_CMD] (nnBytes total) (by simp only [List.length_singleton]; omega)
  unfold sendSizeMsg
  rw [storeByte_ok _ _ _ (by omega) (by omega)]
  simp only [show (0 : Int).toNat = 0 from rfl, w']
  rw [show splice (splice buf 0 [SIZE_CMD]) (1 : Int).toNat (nnBytes total) = _ from e]
  refine ⟨splice buf 0 ([SIZE_CMD] ++ nnBytes total), ?_,
    splice_length _ _ _ (by simp only [List.length_append, List.length_singleton]; omega)⟩
  have e3 : (1 + ((nnBytes total).length : Int)).toNat = ([SIZE_CMD] ++ nnBytes total).length := by
    simp only [List.length_append, List.length_singleton]; omega
  rw [e3, take_splice_zero]; rfl

theorem sendDoneMsg_eq (ver : Int) (status : UInt8) (n total : Int) (hn : NN n) (ht : NN total) (buf : Bytes)
    (hbuf : 8192 ≤ buf.length) :
    ∃ buf' pad, sendDoneMsg ver status n total buf = .ok (buf', DONE_CMD :: status ::
        ((nnBytes n ++ if ver ≥ CHECKPOINT_OFFSET_VERSION then nnBytes total else []) ++ pad)) ∧
      (DONE_CMD :: status ::
        ((nnBytes n ++ if ver ≥ CHECKPOINT_OFFSET_VERSION then nnBytes total else []) ++ pad)).length = 256 := by
  have hk : kMaxDone = 22 := rfl
  have hk' : (22 : Int) ≤ int64Max := by decide
  have q1 := nnBytes_length_le n
  have q2 := nnBytes_length_le total
  have w := writes_encodeDone (max := kMaxDone) (by omega) (by omega) ver n total hn ht
  generalize hB : (nnBytes n ++ if ver ≥ CHECKPOINT_OFFSET_VERSION then nnBytes total else []) = B at w
  have hBl : B.length ≤ 18 := by
    rw [← hB, List.length_append]; split
    · omega
    · simp only [List.length_nil]; omega
  have hl := splice_length buf 0 [DONE_CMD, status] (by simp only [List.length_cons, List.length_nil]; omega)
  have w' := (w (splice buf 0 [DONE_CMD, status]) 2 (by omega) (by omega) (by omega)).1 (by omega)
  have e := splice_append buf 0 [DONE_CMD, status] B (by simp only [List.length_cons, List.length_nil]; omega)
  unfold sendDoneMsg
  rw [storeBytes_ok _ _ _ (by omega) (by simp only [List.length_cons, List.length_nil]; omega)]
  simp only [show (0 : Int).toNat = 0 from rfl, w']
  rw [show splice (splice buf 0 [DONE_CMD, status]) (2 : Int).toNat B = _ from e]
  refine ⟨splice buf 0 ([DONE_CMD, status] ++ B), (buf.drop (2 + B.length)).take (254 - B.length), ?_, ?_⟩
  · congr 2
    unfold splice
    rw [List.take_zero, List.nil_append, List.take_append, show kMinBufLength.toNat = 256 from rfl,
      List.take_of_length_le (by simp only [List.length_append, List.length_cons, List.length_nil]; omega)]
    have h1 : 0 + ([DONE_CMD, status] ++ B).length = 2 + B.length := by
      simp only [List.length_append, List.length_cons, List.length_nil]; omega
    have h2 : 256 - ([DONE_CMD, status] ++ B).length = 254 - B.length := by
      simp only [List.length_append, List.length_cons, List.length_nil]; omega
    rw [h1, h2]; simp
  · simp only [List.length_cons, List.length_append, List.length_take, List.length_drop]
    omega

theorem headerBytes_length (ver : Int) (b : BlockDetails) (h : b.fileName.length ≤ 204) :
    1 ≤ (headerBytes ver b).length ∧ (headerBytes ver b).length ≤ 252 := by
  have l1 := nnBytes_length_le b.seqId
  have l2 := nnBytes_length_le b.dataSize
  have l3 := nnBytes_length_le b.offset
  have l4 := nnBytes_length_le b.fileSize
  have l5 := nnBytes_length_le b.prevSeqId
  have p1 := nnBytes_length_pos b.seqId
  have hs := encodeVarU64Str_length_lt 2 b.fileName.length (by omega) (by omega) (by omega)
  unfold headerBytes strBytes
  simp only [List.length_append]
  split
  · simp only [List.length_append, List.length_singleton]
    split
    · omega
    · simp only [List.length_nil]; omega
  · simp only [List.length_nil]; omega

theorem sendHeaderMsg_eq (ver : Int) (status : UInt8) (b : BlockDetails) (hb : b.WF)
    (hn : b.fileName.length ≤ 204) (hbuf : Bytes) (hl : (hbuf.length : Int) = kMaxHeader) :
    sendHeaderMsg ver status b hbuf = .ok ([FILE_CMD, status] ++ leBytes 2 (4 + (headerBytes ver b).length) ++
      headerBytes ver b) := by
  obtain ⟨a1, a2, a3, a4, a5, a6, a7⟩ := hb
  have hk : kMaxHeader = 4150 := rfl
  have hk' : (4150 : Int) ≤ int64Max := by decide
  obtain ⟨q1, q2⟩ := headerBytes_length ver b hn
  have w := writes_encodeHeader (max := kMaxHeader) (by omega) (by omega) ver b a1 a2 a3 a4 a5
  have hl1 := splice_length hbuf 0 [FILE_CMD, status] (by simp only [List.length_cons, List.length_nil]; omega)
  have w' := (w (splice hbuf 0 [FILE_CMD, status]) 4 (by omega) (by omega) (by omega)).1 (by omega)
  have hl2 := splice_length (splice hbuf 0 [FILE_CMD, status]) 4 (headerBytes ver b) (by omega)
  have h2 := leBytes_length 2 (4 + ((headerBytes ver b).length : Int))
  unfold sendHeaderMsg
  rw [storeBytes_ok _ _ _ (by omega) (by simp only [List.length_cons, List.length_nil]; omega)]
  simp only [show (0 : Int).toNat = 0 from rfl, w']
  rw [storeBytes_ok _ _ _ (by omega) (by rw [h2]; simp only [show (4 : Int).toNat = 4 from rfl]; omega)]
  simp only [show (4 : Int).toNat = 4 from rfl, show (2 : Int).toNat = 2 from rfl]
  congr 1
  generalize headerBytes ver b = H at *
  generalize leBytes 2 (4 + (H.length : Int)) = L at *
  apply List.ext_getElem?
  intro i
  have hL : ([FILE_CMD, status] ++ L).length = 4 := by
    simp only [List.length_append, List.length_cons, List.length_nil, h2]
  rw [List.getElem?_take, splice_getElem? _ _ _ (by omega), splice_getElem? _ _ _ (by omega),
    splice_getElem? _ _ _ (by simp only [List.length_cons, List.length_nil]; omega)]
  simp only [List.getElem?_append, hL, List.length_cons, List.length_nil, h2]
  have ht : (4 + (H.length : Int)).toNat = 4 + H.length := by omega
  rw [ht]
  by_cases c1 : i < 2
  · simp [c1, show i < 4 + H.length by omega, show i < 4 by omega]
  · by_cases c2 : i < 4
    · simp [c1, c2, show i < 4 + H.length by omega]
    · by_cases c3 : i < 4 + H.length
      · simp [c1, c2, c3]
      · simp only [c3, if_false, c2, show ¬ i < 0 + 1 + 1 by omega]
        rw [List.getElem?_eq_none (by omega)]

theorem sendFooterMsg_eq (sum : Int) (h : int32Min ≤ sum ∧ sum ≤ int32Max) (hbuf : Bytes)
    (hl : (hbuf.length : Int) = kMaxHeader) :
    sendFooterMsg sum hbuf = .ok (FOOTER_CMD :: encodeVarU64Str (zigzag sum)) := by
  have hk : kMaxHeader = 4150 := rfl
  have hk2 : kMaxFooter = 11 := rfl
  have hk' : (11 : Int) ≤ int64Max := by decide
  obtain ⟨h1, h2⟩ := h
  have q := encodeVarU64Str_length_le (zigzag sum)
  have w : Writes kMaxFooter (encodeFooter kMaxFooter sum) (encodeVarU64Str (zigzag sum)) :=
    writes_encodeVarI64 _ (by omega) (by omega) _ (by unfold int32Min at *; omega) (by unfold int32Max at *; omega)
  have hl1 := splice_length hbuf 0 [FOOTER_CMD] (by simp only [List.length_singleton]; omega)
  have w' := (w (splice hbuf 0 [FOOTER_CMD]) 1 (by omega) (by omega) (by omega)).1 (by omega)
  have e := splice_append hbuf 0 [FOOTER_CMD] (encodeVarU64Str (zigzag sum)) (by simp only [List.length_singleton]; omega)
  unfold sendFooterMsg
  rw [storeByte_ok _ _ _ (by omega) (by omega)]
  simp only [show (0 : Int).toNat = 0 from rfl, w']
  rw [show splice (splice hbuf 0 [FOOTER_CMD]) (1 : Int).toNat (encodeVarU64Str (zigzag sum)) = _ from e]
  have e3 : (1 + ((encodeVarU64Str (zigzag sum)).length : Int)).toNat = ([FOOTER_CMD] ++ encodeVarU64Str (zigzag sum)).length := by
    simp only [List.length_append, List.length_singleton]; omega
  rw [e3, take_splice_zero]; rfl

/-! ### The reference parser on these bytes -/

theorem window (a b c : Bytes) (k : Nat) (h : a.length + b.length ≤ k) :
    ((a ++ (b ++ c)).take k).drop a.length = b ++ c.take (k - a.length - b.length) := by
  rw [List.take_append, List.take_of_length_le (by omega), List.drop_left' rfl, List.take_append,
    List.take_of_length_le (by omega)]

theorem parses_settingsDec (ver : Int) (s : Settings) (hs : s.WF) :
    Parses (settingsDec ver) (nnBytes s.readTimeoutMillis ++ (nnBytes s.writeTimeoutMillis ++
        (strBytes s.transferId ++
          if ver ≥ SETTINGS_FLAG_VERSION then [UInt8.ofNat (settingsFlags s)] else []))) (s.carried ver) := by
  obtain ⟨a1, a2, a3, a4, a5⟩ := hs
  have p1 : Parses (decodeSettingsFixed {}) (nnBytes s.readTimeoutMillis ++ (nnBytes s.writeTimeoutMillis ++
        (strBytes s.transferId)))
      { readTimeoutMillis := s.readTimeoutMillis, writeTimeoutMillis := s.writeTimeoutMillis, transferId := s.transferId } :=
    (parses_decodeInt32C _ a1 a2).bind <| (parses_decodeInt32C _ a3 a4).bind <|
      (parses_decodeString _ (strlen_ok a5)).map _
  have e12 : SETTINGS_FLAG_VERSION = 12 := rfl
  obtain ⟨f1, f2, f3, f4⟩ := settingsFlags_bits s
  have := p1.bind (f := fun s => if ver ≥ SETTINGS_FLAG_VERSION then
      decodeByte.bind fun flags => Dec.pure { s with
        enableChecksum := decide (flags.toNat &&& 1 ≠ 0)
        sendFileChunks := decide (flags.toNat &&& (1 <<< 1) ≠ 0)
        blockModeDisabled := decide (flags.toNat &&& (1 <<< 2) ≠ 0)
        enableHeartBeat := decide (flags.toNat &&& (1 <<< 3) ≠ 0) }
    else Dec.pure s) (b2 := if ver ≥ SETTINGS_FLAG_VERSION then [UInt8.ofNat (settingsFlags s)] else [])
    (b := s.carried ver) ?_
  · unfold settingsDec
    simpa only [List.append_assoc] using this
  · unfold Settings.carried
    by_cases hv : ver ≥ SETTINGS_FLAG_VERSION
    · rw [if_pos hv, if_pos hv, if_pos (by omega)]
      have := (parses_decodeByte (UInt8.ofNat (settingsFlags s))).map (fun flags => ({
        readTimeoutMillis := s.readTimeoutMillis, writeTimeoutMillis := s.writeTimeoutMillis, transferId := s.transferId,
        enableChecksum := decide (flags.toNat &&& 1 ≠ 0)
        sendFileChunks := decide (flags.toNat &&& (1 <<< 1) ≠ 0)
        blockModeDisabled := decide (flags.toNat &&& (1 <<< 2) ≠ 0)
        enableHeartBeat := decide (flags.toNat &&& (1 <<< 3) ≠ 0) } : Settings))
      simp only [f1, f2, f3, f4] at this
      exact this
    · rw [if_neg hv, if_neg hv, if_neg (by omega)]
      exact parses_pure _

theorem specCmd_settings (crc : Int → UInt8 → Int) (ver rver : Int) (hver : 0 ≤ ver ∧ ver ≤ int32Max)
    (hacc : receiverOnSettings ver rver = (ver, .accept)) (s : Settings) (hs : s.WF)
    (hid : s.transferId.length ≤ 200) (hc : s.sendFileChunks = false) (footer : Bool) (rest : Bytes)
    (hr : 256 ≤ 1 + (settingsBytes ver s).length + rest.length) :
    specCmd crc s.transferId rver footer (SETTINGS_CMD :: (settingsBytes ver s ++ rest)) 0 =
      ([.settings (s.carried ver)], .next rest ver (s.carried ver).enableChecksum (1 + (settingsBytes ver s).length)) := by
  obtain ⟨q1, q2⟩ := settingsBytes_length ver s hid
  have hl : (SETTINGS_CMD :: (settingsBytes ver s ++ rest)).length = 1 + (settingsBytes ver s).length + rest.length := by
    simp only [List.length_cons, List.length_append]; omega
  unfold specCmd
  rw [if_neg (by omega), if_neg (by simp [SETTINGS_CMD]), if_neg (by simp [SETTINGS_CMD]), if_pos (show List.head? _ = some _ from rfl)]
  unfold specSettings
  have pv := parses_decodeInt32C ver hver.1 hver.2
  have hvl : (encodeVarU64Str ver.toNat).length ≤ 9 := nnBytes_length_le ver
  have hvp : 1 ≤ (encodeVarU64Str ver.toNat).length := nnBytes_length_pos ver
  have ps := parses_settingsDec ver s hs
  have hB : settingsBytes ver s = encodeVarU64Str ver.toNat ++ (nnBytes s.readTimeoutMillis ++ (nnBytes s.writeTimeoutMillis ++
        (strBytes s.transferId ++
          if ver ≥ SETTINGS_FLAG_VERSION then [UInt8.ofNat (settingsFlags s)] else []))) := rfl
  generalize (nnBytes s.readTimeoutMillis ++ (nnBytes s.writeTimeoutMillis ++
        (strBytes s.transferId ++
          if ver ≥ SETTINGS_FLAG_VERSION then [UInt8.ofNat (settingsFlags s)] else []))) = B at *
  generalize encodeVarU64Str ver.toNat = V at *
  have hBl : (settingsBytes ver s).length = V.length + B.length := by rw [hB, List.length_append]
  have w1 := window [SETTINGS_CMD] V (B ++ rest) 10 (by simp only [List.length_singleton]; omega)
  have w2 := window ([SETTINGS_CMD] ++ V) B rest 256 (by simp only [List.length_append, List.length_singleton]; omega)
  have hS : SETTINGS_CMD :: (settingsBytes ver s ++ rest) = [SETTINGS_CMD] ++ (V ++ (B ++ rest)) := by
    rw [hB]; simp
  have hS2 : [SETTINGS_CMD] ++ (V ++ (B ++ rest)) = ([SETTINGS_CMD] ++ V) ++ (B ++ rest) := by simp
  rw [hS, show (1 : Nat) = [SETTINGS_CMD].length from rfl, w1, pv]
  simp only [hacc]
  have hrl : ((B ++ rest).take (10 - [SETTINGS_CMD].length - V.length)).length = 9 - V.length := by
    rw [List.length_take, List.length_append, List.length_singleton]; omega
  have hoff : 10 - (9 - V.length) = ([SETTINGS_CMD] ++ V).length := by
    rw [List.length_append, List.length_singleton]; omega
  rw [hrl, hoff, hS2, w2, ps]
  simp only
  have hid' : (s.carried ver).transferId = s.transferId := by unfold Settings.carried; split <;> rfl
  have hc' : (s.carried ver).sendFileChunks = false := by unfold Settings.carried; split; exact hc; rfl
  rw [if_neg (by simp [hid']), hc', if_neg (by simp)]
  have hrl2 : (rest.take (256 - ([SETTINGS_CMD] ++ V).length - B.length)).length =
      255 - V.length - B.length := by
    simp only [List.length_take, List.length_append, List.length_singleton]; omega
  rw [hrl2, ← List.append_assoc, List.drop_left' (by simp only [List.length_append, List.length_singleton]; omega)]
  rw [hBl]
  congr 2
  simp only [List.length_singleton]; omega

theorem specCmd_size (crc : Int → UInt8 → Int) (id : Bytes) (ver : Int) (footer : Bool) (total : Int) (ht : NN total)
    (rest : Bytes) (hr : 256 ≤ 1 + (nnBytes total).length + rest.length) (slack : Nat) :
    specCmd crc id ver footer (SIZE_CMD :: (nnBytes total ++ rest)) slack =
      ([.size total], .next rest ver footer (slack + (1 + (nnBytes total).length))) := by
  have q2 := nnBytes_length_le total
  unfold specCmd
  rw [if_neg (by simp only [List.length_cons, List.length_append]; omega), if_neg (by simp [SIZE_CMD]),
    if_neg (by simp [SIZE_CMD]), if_neg (by simp [SIZE_CMD]), if_pos (show List.head? _ = some _ from rfl)]
  have w1 := window [SIZE_CMD] (nnBytes total) rest 11 (by simp only [List.length_singleton]; omega)
  have hS : SIZE_CMD :: (nnBytes total ++ rest) = [SIZE_CMD] ++ (nnBytes total ++ rest) := rfl
  rw [hS, show (1 : Nat) = [SIZE_CMD].length from rfl, w1, parses_nn ht]
  simp only
  have hrl : (rest.take (11 - [SIZE_CMD].length - (nnBytes total).length)).length = 10 - (nnBytes total).length := by
    simp only [List.length_take, List.length_singleton]; omega
  have e : 11 - (10 - (nnBytes total).length) = ([SIZE_CMD] ++ nnBytes total).length := by
    simp only [List.length_append, List.length_singleton]; omega
  rw [hrl, e, ← List.append_assoc, List.drop_left' rfl, List.length_append]

theorem specCmd_done (crc : Int → UInt8 → Int) (id : Bytes) (ver : Int) (footer : Bool) (status : UInt8) (n total : Int)
    (hn : NN n) (ht : NN total) (pad : Bytes) (slack : Nat)
    (hl : (DONE_CMD :: status ::
        ((nnBytes n ++ if ver ≥ CHECKPOINT_OFFSET_VERSION then nnBytes total else []) ++ pad)).length = 256) :
    specCmd crc id ver footer (DONE_CMD :: status ::
        ((nnBytes n ++ if ver ≥ CHECKPOINT_OFFSET_VERSION then nnBytes total else []) ++ pad)) slack =
      ([], .stop (.done status n (if ver ≥ 16 then some total else none))) := by
  have q1 := nnBytes_length_le n
  have q2 := nnBytes_length_le total
  have p : Parses (decodeInt64C.bind fun n =>
          if ver ≥ 16 then decodeInt64C.bind fun t => Dec.pure (n, some t)
          else Dec.pure (n, none)) (nnBytes n ++ if ver ≥ CHECKPOINT_OFFSET_VERSION then nnBytes total else [])
        (n, if ver ≥ 16 then some total else none) := by
    refine (parses_nn hn).bind ?_
    by_cases hv : ver ≥ 16
    · rw [if_pos hv, if_pos hv, if_pos (show ver ≥ CHECKPOINT_OFFSET_VERSION from hv)]
      exact (parses_nn ht).map _
    · rw [if_neg hv, if_neg hv, if_neg (show ¬ ver ≥ CHECKPOINT_OFFSET_VERSION from hv)]
      exact parses_pure _
  have hBl : (nnBytes n ++ if ver ≥ CHECKPOINT_OFFSET_VERSION then nnBytes total else []).length ≤ 18 := by
    rw [List.length_append]; split
    · omega
    · simp only [List.length_nil]; omega
  generalize (nnBytes n ++ if ver ≥ CHECKPOINT_OFFSET_VERSION then nnBytes total else []) = B at *
  unfold specCmd
  rw [if_neg (by omega), if_pos (show List.head? _ = some _ from rfl), if_pos hl]
  have w1 := window [DONE_CMD, status] B pad 22 (by simp only [List.length_cons, List.length_nil]; omega)
  have hS : DONE_CMD :: status :: (B ++ pad) = [DONE_CMD, status] ++ (B ++ pad) := rfl
  rw [hS, show (2 : Nat) = [DONE_CMD, status].length from rfl, w1, p]
  rfl

theorem parses_headerDec (ver hver : Int) (hv : hver ≥ 13 ↔ ver ≥ 13) (b : BlockDetails) (hb : b.WF) :
    Parses (headerDec ver) (headerBytes hver b) (b.carried ver) := by
  obtain ⟨a1, a2, a3, a4, a5, a6, a7⟩ := hb
  have pf := parses_decodeHeaderFixed {} b a6 a1 a2 a3 a4
  have e13 : HEADER_FLAG_AND_PREV_SEQ_ID_VERSION = 13 := rfl
  have := pf.bind (f := fun b => if ver ≥ HEADER_FLAG_AND_PREV_SEQ_ID_VERSION then decodeHeaderFlags b else Dec.pure b)
    (b2 := if hver ≥ HEADER_FLAG_AND_PREV_SEQ_ID_VERSION then
      [UInt8.ofNat b.allocationStatus] ++
      (if b.allocationStatus = EXISTS_TOO_SMALL ∨ b.allocationStatus = EXISTS_TOO_LARGE
       then nnBytes b.prevSeqId else []) else []) (b := b.carried ver) ?_
  · unfold headerDec headerBytes
    simpa only [List.append_assoc] using this
  · by_cases h : ver ≥ 13
    · rw [if_pos (show ver ≥ HEADER_FLAG_AND_PREV_SEQ_ID_VERSION from h),
        if_pos (show hver ≥ HEADER_FLAG_AND_PREV_SEQ_ID_VERSION from hv.mpr h)]
      have pg := parses_decodeHeaderFlags ({
        fileName := b.fileName, seqId := b.seqId, dataSize := b.dataSize,
        offset := b.offset, fileSize := b.fileSize, allocationStatus := NOT_EXISTS, prevSeqId := 0 } : BlockDetails)
        b.allocationStatus b.prevSeqId (by exact Nat.lt_of_le_of_lt a7 (by decide)) a5
      have e : b.carried ver = (if b.allocationStatus = EXISTS_TOO_SMALL ∨ b.allocationStatus = EXISTS_TOO_LARGE then
        (BlockDetails.mk b.fileName b.seqId b.fileSize b.offset b.dataSize b.allocationStatus b.prevSeqId)
        else (BlockDetails.mk b.fileName b.seqId b.fileSize b.offset b.dataSize b.allocationStatus 0)) := by
        unfold BlockDetails.carried
        simp only [h, if_true, true_and]
        by_cases hs : b.allocationStatus = EXISTS_TOO_SMALL ∨ b.allocationStatus = EXISTS_TOO_LARGE
        · rw [if_pos hs, if_pos (by simp only [EXISTS_TOO_SMALL, EXISTS_TOO_LARGE] at hs; tauto)]
        · rw [if_neg hs, if_neg (by simp only [EXISTS_TOO_SMALL, EXISTS_TOO_LARGE] at hs; tauto)]
      rw [e]
      exact pg
    · rw [if_neg (show ¬ ver ≥ HEADER_FLAG_AND_PREV_SEQ_ID_VERSION from h),
        if_neg (show ¬ hver ≥ HEADER_FLAG_AND_PREV_SEQ_ID_VERSION from fun h' => h (hv.mp h'))]
      have e : b.carried ver = BlockDetails.mk b.fileName b.seqId b.fileSize b.offset b.dataSize NOT_EXISTS 0 := by
        unfold BlockDetails.carried; simp [h]
      rw [e]
      exact parses_pure _

/-- Bytes of a block on the wire. -/
def blockBytes (hver : Int) (crc : Int → UInt8 → Int) (footer : Bool) (status : UInt8) (b : BlockDetails) (data : Bytes) : Bytes :=
  ([FILE_CMD, status] ++ leBytes 2 (4 + (headerBytes hver b).length) ++ headerBytes hver b) ++ data ++
    (if footer then FOOTER_CMD :: encodeVarU64Str (zigzag (data.foldl crc 0)) else [])

theorem specCmd_block (crc : Int → UInt8 → Int) (hcrc : ∀ x b, int32Min ≤ crc x b ∧ crc x b ≤ int32Max)
    (id : Bytes) (ver hver : Int) (hv : hver ≥ 13 ↔ ver ≥ 13)
    (footer : Bool) (status : UInt8) (b : BlockDetails) (hb : b.WF) (hn : b.fileName.length ≤ 204) (data : Bytes)
    (hd : (data.length : Int) = b.dataSize)
    (hdel : b.allocationStatus = TO_BE_DELETED → b.fileSize = 0 ∧ b.dataSize = 0)
    (rest : Bytes) (hr : 256 ≤ rest.length) (slack : Nat) :
    ∃ sl, sl ≤ 11 ∧ specCmd crc id ver footer (blockBytes hver crc footer status b data ++ rest) slack =
      (.block (b.carried ver) data true :: (if footer then [.verified (b.carried ver)] else []),
        .next rest ver footer sl) := by
  obtain ⟨q1, q2⟩ := headerBytes_length hver b hn
  have ph := parses_headerDec ver hver hv b hb
  have h2 := leBytes_length 2 (4 + ((headerBytes hver b).length : Int))
  have hle := leNat_leBytes 2 (4 + ((headerBytes hver b).length : Int)) (by omega) (by omega)
  unfold blockBytes
  generalize hH : headerBytes hver b = H at *
  generalize hLe : leBytes 2 (4 + (H.length : Int)) = L at *
  generalize hF : (if footer then FOOTER_CMD :: encodeVarU64Str (zigzag (data.foldl crc 0)) else []) = F
  have hS : ([FILE_CMD, status] ++ L ++ H) ++ data ++ F ++ rest = FILE_CMD :: status :: (L ++ (H ++ (data ++ (F ++ rest)))) := by
    simp
  rw [hS]
  unfold specCmd
  rw [if_neg (by simp only [List.length_cons, List.length_append]; omega), if_neg (by simp [FILE_CMD]), if_pos (show List.head? _ = some _ from rfl)]
  unfold specFile
  have hi : int16At (FILE_CMD :: status :: (L ++ (H ++ (data ++ (F ++ rest))))) 2 = 4 + H.length := by
    unfold int16At
    simp only [List.drop_succ_cons, List.drop_zero]
    rw [List.take_left' h2, if_pos (by omega), hle]
  have hdrop : (FILE_CMD :: status :: (L ++ (H ++ (data ++ (F ++ rest))))).drop 4 = H ++ (data ++ (F ++ rest)) := by
    simp only [List.drop_succ_cons]
    rw [List.drop_left' h2]
  rw [hi, if_neg (by omega), if_neg (by omega), hdrop, ph]
  have hcd : (b.carried ver).dataSize = b.dataSize := rfl
  have hcf : (b.carried ver).fileSize = b.fileSize := rfl
  simp only [hcd, hcf]
  rw [if_neg (by simp only [List.length_cons, List.length_append]; omega), if_neg ?_,
    if_neg (by simp only [List.length_append]; omega)]
  · have ht : b.dataSize.toNat = data.length := by omega
    rw [ht, List.take_left' rfl, List.drop_left' rfl]
    by_cases hf : footer = true
    · rw [if_pos hf, if_pos hf]
      rw [if_pos hf] at hF
      subst hF
      unfold specFooter
      have q := encodeVarU64Str_length_le (zigzag (data.foldl crc 0))
      rw [if_neg (by simp only [List.length_append]; omega), if_neg (by simp [FOOTER_CMD])]
      have hrange : int32Min ≤ data.foldl crc 0 ∧ data.foldl crc 0 ≤ int32Max := by
        rcases List.eq_nil_or_concat data with h | ⟨d, x, h⟩
        · rw [h, List.foldl_nil]; decide
        · rw [h, List.concat_eq_append, List.foldl_append]; exact hcrc _ _
      have pz := parses_decodeInt32 (data.foldl crc 0) hrange.1 hrange.2
      generalize encodeVarU64Str (zigzag (data.foldl crc 0)) = Z at *
      have w1 := window [FOOTER_CMD] Z rest 11 (by simp only [List.length_singleton]; omega)
      have hS : FOOTER_CMD :: Z ++ rest = [FOOTER_CMD] ++ (Z ++ rest) := rfl
      rw [hS, show (1 : Nat) = [FOOTER_CMD].length from rfl, w1, pz]
      simp only [ne_eq, not_true_eq_false, if_false]
      have hrl : (rest.take (11 - [FOOTER_CMD].length - Z.length)).length = 10 - Z.length := by
        simp only [List.length_take, List.length_singleton]; omega
      have e : 11 - (10 - Z.length) = ([FOOTER_CMD] ++ Z).length := by
        simp only [List.length_append, List.length_singleton]; omega
      rw [hrl, e, ← List.append_assoc, List.drop_left' rfl, hf]
      exact ⟨_, by omega, rfl⟩
    · rw [if_neg hf, if_neg hf]
      rw [if_neg hf] at hF
      subst hF
      exact ⟨0, by omega, rfl⟩
  · rintro ⟨h1, h2⟩
    have h3 : b.allocationStatus = TO_BE_DELETED := by
      unfold BlockDetails.carried at h1
      simp only at h1
      split at h1
      · exact h1
      · exact absurd h1 (by decide)
    have := hdel h3
    omega

/-! ### A whole connection -/

/-- What the receiver should observe for one item. -/
def SItem.obs (ver : Int) (footer : Bool) : SItem → List RObs
  | .size t => [.size t]
  | .block _ b data => .block (b.carried ver) data true :: if footer then [.verified (b.carried ver)] else []

/-- An item the sender can produce: fields in range, the data has the announced
size, deletions carry no data, and the name is short enough for the header to fit
256 bytes (otherwise see `C34_violated_long_name`). -/
def SItem.WF : SItem → Prop
  | .size t => NN t
  | .block _ b data => b.WF ∧ b.fileName.length ≤ 204 ∧ (data.length : Int) = b.dataSize ∧
      (b.allocationStatus = TO_BE_DELETED → b.fileSize = 0 ∧ b.dataSize = 0)

/-- Number of SIZE commands. -/
def sizeCount (items : List SItem) : Nat := (items.filter fun i => match i with | .size _ => true | _ => false).length

theorem sendItems_spec (crc : Int → UInt8 → Int) (hcrc : ∀ x b, int32Min ≤ crc x b ∧ crc x b ≤ int32Max)
    (id : Bytes) (ver hver : Int) (hv : hver ≥ 13 ↔ ver ≥ 13) (footer : Bool) (hbuf : Bytes)
    (hhb : (hbuf.length : Int) = kMaxHeader) (status : UInt8) (n total : Int) (hn : NN n) (ht : NN total) :
    ∀ (items : List SItem) (buf : Bytes) (slack fuel : Nat), 8192 ≤ buf.length → (∀ i ∈ items, i.WF) →
      slack + 11 * sizeCount items ≤ 3000 → sizeCount items ≤ 200 → items.length < fuel →
      ∃ s, sendItems ver hver crc footer hbuf status n total items buf = .ok s ∧ 256 ≤ s.length ∧
        specRun crc id fuel ver footer s slack = some (items.flatMap (SItem.obs ver footer),
          .done status n (if ver ≥ 16 then some total else none)) := by
  intro items
  induction items with
  | nil =>
    intro buf slack fuel hb _ _ _ hfu
    obtain ⟨fuel, rfl⟩ : ∃ k, fuel = k + 1 := ⟨fuel - 1, by omega⟩
    obtain ⟨buf', pad, e, hl⟩ := sendDoneMsg_eq ver status n total hn ht buf hb
    refine ⟨_, by rw [sendItems, e], by omega, ?_⟩
    rw [specRun, specCmd_done crc id ver footer status n total hn ht pad slack hl]
    rfl
  | cons i items ih =>
    intro buf slack fuel hb hwf hsl hsc hfu
    obtain ⟨fuel, rfl⟩ : ∃ k, fuel = k + 1 := ⟨fuel - 1, by omega⟩
    simp only [List.length_cons] at hfu
    have hi := hwf i (by simp)
    have hw' : ∀ j ∈ items, j.WF := fun j hj => hwf j (by simp [hj])
    cases i with
    | size t =>
      have hcnt : sizeCount (.size t :: items) = sizeCount items + 1 := by simp [sizeCount]
      obtain ⟨buf', e, hbl⟩ := sendSizeMsg_eq t hi buf hb
      have hq := nnBytes_length_le t
      obtain ⟨s, es, hs, hr⟩ := ih buf' (slack + (1 + (nnBytes t).length)) fuel (by omega) hw' (by omega) (by omega) (by omega)
      refine ⟨(SIZE_CMD :: nnBytes t) ++ s, by rw [sendItems, e]; simp only [es], by rw [List.length_append]; omega, ?_⟩
      rw [specRun, List.cons_append, specCmd_size crc id ver footer t hi s (by omega) slack]
      simp only
      rw [if_neg (by omega), hr]
      rfl
    | block st b data =>
      have hcnt : sizeCount (.block st b data :: items) = sizeCount items := by simp [sizeCount]
      obtain ⟨h1, h2, h3, h4⟩ := hi
      have hrange : int32Min ≤ data.foldl crc 0 ∧ data.foldl crc 0 ≤ int32Max := by
        rcases List.eq_nil_or_concat data with h | ⟨d, x, h⟩
        · rw [h, List.foldl_nil]; decide
        · rw [h, List.concat_eq_append, List.foldl_append]; exact hcrc _ _
      have hmsg : sendBlockMsg hver crc footer st b data hbuf = .ok (blockBytes hver crc footer st b data) := by
        unfold sendBlockMsg blockBytes
        rw [sendHeaderMsg_eq hver st b h1 h2 hbuf hhb, sendFooterMsg_eq _ hrange hbuf hhb]
        by_cases hf : footer = true
        · simp [hf]
        · simp [hf]
      obtain ⟨s0, e0, hs0, _⟩ := ih buf 11 fuel hb hw' (by omega) (by omega) (by omega)
      obtain ⟨sl, hsl', hk⟩ := specCmd_block crc hcrc id ver hver hv footer st b h1 h2 data h3 h4 s0 hs0 slack
      obtain ⟨s, es, hs, hr⟩ := ih buf sl fuel hb hw' (by omega) (by omega) (by omega)
      rw [e0] at es
      cases es
      refine ⟨blockBytes hver crc footer st b data ++ s0, by rw [sendItems, hmsg]; simp only [e0], by rw [List.length_append]; omega, ?_⟩
      rw [specRun, hk]
      simp only
      rw [if_neg (by omega), hr]
      rfl

/-- **C34**, **C45** (partial: names up to 204 bytes, transfer ids up to 200 bytes, no
resumption).  A sender thread that sends settings, any blocks and up to 200 SIZE
commands and DONE without disturbance: however the network splits the bytes and
whatever both buffers held before, the receiver thread accepts the settings,
writes exactly the sent blocks with their data, verifies each checksum if
checksums are on, and gets the sender's number of blocks. -/
theorem C34_delivery_partial (frag : List Int → Nat) (crc : Int → UInt8 → Int)
    (hcrc : ∀ x b, int32Min ≤ crc x b ∧ crc x b ≤ int32Max)
    (ver hver rver : Int) (hver1 : 0 ≤ ver ∧ ver ≤ int32Max) (hv : hver ≥ 13 ↔ ver ≥ 13)
    (hacc : receiverOnSettings ver rver = (ver, .accept))
    (st : Settings) (hst : st.WF) (hid : st.transferId.length ≤ 200) (hch : st.sendFileChunks = false)
    (hfoot : ver ≥ 12 ∨ st.enableChecksum = false)
    (items : List SItem) (hit : ∀ i ∈ items, i.WF) (hsz : sizeCount items ≤ 200)
    (status : UInt8) (n total : Int) (hn : NN n) (ht : NN total)
    (buf hbuf rbuf : Bytes) (hb : 8192 ≤ buf.length) (hhb : (hbuf.length : Int) = kMaxHeader)
    (hrb : 8192 ≤ rbuf.length) (footer0 : Bool) (fuel : Nat) (hfu : items.length + 1 < fuel) :
    ∃ stream, sendStream ver hver crc st hbuf status n total items buf = .ok stream ∧
      receive frag crc st.transferId fuel (.fresh rbuf stream rver footer0) =
        .ok (.settings (st.carried ver) :: items.flatMap (SItem.obs ver st.enableChecksum),
          .done status n (if ver ≥ 16 then some total else none)) := by
  have hle : int32Max ≤ int64Max := by decide
  obtain ⟨buf', e, hbl⟩ := sendSettingsMsg_eq ver ⟨hver1.1, by omega⟩ st hst hid hch buf hb
  obtain ⟨q1, q2⟩ := settingsBytes_length ver st hid
  obtain ⟨fuel, rfl⟩ : ∃ k, fuel = k + 1 := ⟨fuel - 1, by omega⟩
  obtain ⟨s, es, hs, hr⟩ := sendItems_spec crc hcrc st.transferId ver hver hv st.enableChecksum hbuf hhb status n total hn ht
    items buf' (1 + (settingsBytes ver st).length) fuel (by omega) hit (by omega) hsz (by omega)
  refine ⟨(SETTINGS_CMD :: settingsBytes ver st) ++ s, by rw [sendStream, e]; simp only [es], ?_⟩
  apply C34_parse_partial frag crc st.transferId rbuf _ rver footer0 hrb
  have hck : (st.carried ver).enableChecksum = st.enableChecksum := by
    unfold Settings.carried
    split
    · rfl
    · rcases hfoot with h | h
      · omega
      · rw [h]
  rw [specRun, List.cons_append, specCmd_settings crc ver rver hver1 hacc st hst hid hch footer0 s (by omega)]
  simp only [hck]
  rw [if_neg (by omega), hr]
  rfl

/-- The hypotheses are met by a small transfer with checksums: a size, a file of
two bytes, an empty file. -/
example : ∃ stream,
    sendStream 30 30 xorCrc { readTimeoutMillis := 5000, writeTimeoutMillis := 5000, transferId := [120], enableChecksum := true }
      (List.replicate 4150 0) 0 2 2
      [.size 2, .block 0 { fileName := [97], seqId := 1, dataSize := 2, fileSize := 2 } [7, 8],
       .block 0 { fileName := [98], seqId := 2 } []] (List.replicate 8192 0) = .ok stream ∧
    receive (fun _ => 0) xorCrc [120] 9 (.fresh (List.replicate 8192 255) stream 30 false) =
      .ok ([.settings { readTimeoutMillis := 5000, writeTimeoutMillis := 5000, transferId := [120], enableChecksum := true },
        .size 2, .block { fileName := [97], seqId := 1, dataSize := 2, fileSize := 2 } [7, 8] true,
        .verified { fileName := [97], seqId := 1, dataSize := 2, fileSize := 2 },
        .block { fileName := [98], seqId := 2 } [] true, .verified { fileName := [98], seqId := 2 }],
        .done 0 2 (some 2)) := by
  refine C34_delivery_partial (fun _ => 0) xorCrc ?_ 30 30 30 ⟨by decide, by decide⟩ Iff.rfl (by decide)
    { readTimeoutMillis := 5000, writeTimeoutMillis := 5000, transferId := [120], enableChecksum := true }
    (by unfold Settings.WF; decide) (by decide) rfl (.inl (by decide)) _ ?_ (by decide) 0 2 2 (by decide) (by decide)
    (List.replicate 8192 0) (List.replicate 4150 0) (List.replicate 8192 255)
    (by rw [List.length_replicate]; exact Nat.le_refl _) (by rw [List.length_replicate]; rfl)
    (by rw [List.length_replicate]; exact Nat.le_refl _) false 9 (by decide)
  · intro x b
    unfold xorCrc int32Min int32Max
    omega
  · intro i hi
    simp only [List.mem_cons, List.not_mem_nil, or_false] at hi
    rcases hi with rfl | rfl | rfl
    · exact ⟨by decide, by decide⟩
    · refine ⟨?_, by decide, rfl, by decide⟩
      unfold BlockDetails.WF; decide
    · refine ⟨?_, by decide, rfl, by decide⟩
      unfold BlockDetails.WF; decide

end Wdt
