import Verif.Props.Protocol
import Verif.Lemmas.ReceiverStream
import Verif.Lemmas.LogParse
/-
Lemmas for Props/HostileStream.lean: what one command can do to the state of a receiver thread,
whatever the bytes.
-/
namespace Wdt

/-- `c` handles a SETTINGS command less than `kMaxVersion + kMaxSettings` bytes before the end of the buffer. -/
def SettingsAtEnd (frag : List Int → Nat) (c : RcvConn) : Prop :=
  ∃ buf numRead net, readAtLeast frag c.off (c.buf.length - c.off) kMinBufLength c.buf c.numRead c.net = .ok (buf, numRead, net) ∧
    kMinBufLength ≤ numRead ∧ loadByte buf c.off = .ok SETTINGS_CMD ∧
    (c.buf.length : Int) < c.off + kMaxVersion + kMaxSettings

/-- Invariant of the states between commands: buffer of `L` bytes, at most `N` bytes so far and to come. -/
structure RcvConn.Inv (L N : Int) (c : RcvConn) : Prop where
  len : (c.buf.length : Int) = L
  off0 : 0 ≤ c.off
  off1 : c.off ≤ L
  room : 0 ≤ c.numRead → c.off + c.numRead ≤ L
  total : c.off + c.numRead + c.net.rest.length ≤ N

/-- What one command can lead to. -/
inductive StepCases (frag : List Int → Nat) (id : Bytes) (L N : Int) (c : RcvConn) : Except Fault (List RObs × RNext) → Prop
  | stop (obs o) : StepCases frag id L N c (.ok (obs, .stop o))
  | next (obs c') (inv : c'.Inv L N) (big : 256 ≤ c.numRead + c.net.rest.length)
      (dec : c'.numRead + c'.net.rest.length < c.numRead + c.net.rest.length)
      (short : id.length ≤ 200 → 0 ≤ c'.numRead) : StepCases frag id L N c (.ok (obs, .next c'))
  | check (h : c.numRead < 0 ∨ (L < N + 32767 ∧ L < c.off + 65534)) : StepCases frag id L N c (.error .check)
  | ub (h : SettingsAtEnd frag c) : StepCases frag id L N c (.error .ub)

theorem loadByte_ok {buf : Bytes} {p : Int} (h0 : 0 ≤ p) (h1 : p < buf.length) : ∃ b, loadByte buf p = .ok b := by
  unfold loadByte
  rw [if_pos ⟨h0, h1⟩, List.getElem?_eq_getElem (by omega)]
  exact ⟨_, rfl⟩

theorem loadBytes_in {buf : Bytes} {p : Int} {n : Nat} (h0 : 0 ≤ p) (h1 : p + n ≤ buf.length) :
    ∃ bs, loadBytes buf p n = .ok bs ∧ bs.length = n := by
  obtain ⟨e, _⟩ := loadBytes_seg buf n p buf.length h0 h1 (Int.le_refl _)
  refine ⟨_, e, ?_⟩
  have := seg_length buf p buf.length h0 (by omega) (Int.le_refl _)
  rw [List.length_take]
  omega

/-- The size of a block in a decoded header is not negative. -/
theorem decodeHeader_size {ver : Int} {src : Bytes} {off max off' : Int} {b : BlockDetails}
    (h : decodeHeader ver {} src off max = .ok (some b, off')) : 0 ≤ b.dataSize := by
  unfold decodeHeader at h
  split at h
  · simp at h
  · split at h
    · simp at h
    · rename_i b0 br' hd
      have h0 : 0 ≤ b0.dataSize := by
        unfold decodeHeaderFixed at hd
        obtain ⟨_, _, _, hd⟩ := decBind_some hd
        obtain ⟨_, _, _, hd⟩ := decBind_some hd
        obtain ⟨_, _, hx, hd⟩ := decBind_some hd
        obtain ⟨_, _, _, hd⟩ := decBind_some hd
        obtain ⟨_, _, _, hd⟩ := decBind_some hd
        simp only [Dec.pure, Prod.mk.injEq, Option.some.injEq] at hd
        rw [← hd.1]
        exact (decodeInt64C_some hx).1
      split at h
      · split at h
        · simp at h
        · simp only [Except.ok.injEq, Prod.mk.injEq] at h
          have h1 : decodeHeaderFlags b0 br' = (some b, (decodeHeaderFlags b0 br').2) := by rw [← h.1]
          unfold decodeHeaderFlags at h1
          obtain ⟨_, _, _, h1⟩ := decBind_some h1
          split at h1
          · obtain ⟨_, _, _, h1⟩ := decBind_some h1
            simp only [Dec.pure, Prod.mk.injEq, Option.some.injEq] at h1
            rw [← h1.1]; exact h0
          · simp only [Dec.pure, Prod.mk.injEq, Option.some.injEq] at h1
            rw [← h1.1]; exact h0
      · simp only [Except.ok.injEq, Prod.mk.injEq, Option.some.injEq] at h
        rw [← h.1]; exact h0

theorem decodeInt32C_cons {br r : Bytes} {v : Int} (h : decodeInt32C br = (some v, r)) :
    (br.length : Int) - r.length ≤ 9 ∧ 1 ≤ (br.length : Int) - r.length := by
  unfold decodeInt32C decodeInt64C at h
  rcases hd : decodeUInt64 br with ⟨_ | a, br'⟩
  · rw [hd] at h; simp at h
  · rw [hd] at h
    simp only at h
    have hr : br' = r := by
      by_cases g : (a : Int) > int64Max
      · rw [if_pos g] at h; simp at h
      · rw [if_neg g] at h
        simp only at h
        by_cases g2 : (a : Int) > int32Max ∨ (a : Int) < 0
        · rw [if_pos g2] at h; simp at h
        · rw [if_neg g2] at h
          simp only [Prod.mk.injEq] at h
          exact h.2
    subst hr
    obtain ⟨_, pre, e, h1, h2⟩ := decodeUInt64_some hd
    have := congrArg List.length e
    rw [List.length_append] at this
    omega

/-- Settings with a short id take few bytes. -/
theorem decodeSettings_cons {ver : Int} {s0 s : Settings} {src : Bytes} {off max off' : Int} (h0 : 0 ≤ off) (h1 : off ≤ max)
    (h2 : max ≤ src.length) (h : decodeSettings ver s0 src off max = .ok (some s, off')) :
    off' - off ≤ 28 + s.transferId.length ∧ off ≤ off' ∧ off' ≤ max := by
  obtain ⟨r, o, e, a, b, _⟩ := C08_decodeSettings_total ver s0 src off max h2
  rw [h] at e
  simp only [Except.ok.injEq, Prod.mk.injEq] at e
  obtain ⟨_, rfl⟩ := e
  refine ⟨?_, a, by omega⟩
  unfold decodeSettings at h
  rw [if_neg (by omega)] at h
  split at h
  · simp at h
  rw [makeByteRange_ok _ _ _ h0 h1 h2] at h
  simp only at h
  split at h
  · simp at h
  · rename_i s1 br' hd
    unfold decodeSettingsFixed at hd
    obtain ⟨_, b1, e1, hd⟩ := decBind_some hd
    obtain ⟨_, b2, e2, hd⟩ := decBind_some hd
    obtain ⟨t, b3, e3, hd⟩ := decBind_some hd
    simp only [Dec.pure, Prod.mk.injEq, Option.some.injEq] at hd
    obtain ⟨hs, rfl⟩ := hd
    have c1 := decodeInt32C_cons e1
    have c2 := decodeInt32C_cons e2
    have c3 : (b2.length : Int) - b3.length ≤ 9 + t.length := by
      unfold decodeString at e3
      rcases hx : decodeUInt64 b2 with ⟨_ | n, b4⟩
      · rw [hx] at e3; simp at e3
      · rw [hx] at e3
        simp only at e3
        obtain ⟨_, pre, e, _, h9⟩ := decodeUInt64_some hx
        have hl := congrArg List.length e
        rw [List.length_append] at hl
        split at e3
        · simp at e3
        · simp only [Prod.mk.injEq, Option.some.injEq] at e3
          rw [← e3.1, ← e3.2, List.length_take, List.length_drop]
          omega
    have ht : s1.transferId = t := by rw [← hs]
    split at h
    · split at h
      · simp at h
      · rename_i f br''
        simp only [Except.ok.injEq, Prod.mk.injEq, Option.some.injEq] at h
        have : s.transferId = t := by rw [← h.1]; exact ht
        rw [this]
        have := h.2
        simp only [List.length_cons] at c3
        omega
    · simp only [Except.ok.injEq, Prod.mk.injEq, Option.some.injEq] at h
      have : s.transferId = t := by rw [← h.1]; exact ht
      rw [this]
      have := h.2
      omega

/-- DONE: the thread stops. -/
theorem processDone_stops (c : RcvConn) (old : Int) (h0 : 0 ≤ old) (ho : c.off = old + 1) (h1 : old + kMaxDone ≤ c.buf.length) :
    ∃ obs o, processDone c old = .ok (obs, .stop o) := by
  have hk : kMaxDone = 22 := rfl
  unfold processDone
  by_cases h : c.numRead ≠ kMinBufLength
  · rw [if_pos h]; exact ⟨_, _, rfl⟩
  rw [if_neg h]
  obtain ⟨b, hb⟩ := loadByte_ok (buf := c.buf) (p := c.off) (by omega) (by omega)
  rw [hb]
  have hs : Suffixy (decodeInt64C.bind fun n =>
      if c.ver ≥ CHECKPOINT_OFFSET_VERSION then decodeInt64C.bind fun b => Dec.pure (n, some b) else Dec.pure (n, none)) :=
    suffixy_decodeInt64C.bind fun n => by
      split
      · exact suffixy_decodeInt64C.bind fun _ => suffixy_pure _
      · exact suffixy_pure _
  obtain ⟨r, o, e, _, _⟩ := withRange_total hs c.buf (c.off + 1) (old + kMaxDone) (by omega) (by omega) (by omega)
  have e' : decodeDone c.ver c.buf (c.off + 1) (old + kMaxDone) = .ok (r, o) := e
  simp only
  rw [e']
  rcases r with _ | ⟨n, t⟩ <;> exact ⟨_, _, rfl⟩

/-- SIZE. -/
theorem processSize_cases (c : RcvConn) (old : Int) (h0 : 0 ≤ old) (ho : c.off = old + 1) (h1 : old + kMaxSize ≤ c.buf.length) :
    (∃ obs o, processSize c old = .ok (obs, .stop o)) ∨
    ∃ obs off, processSize c old = .ok (obs, .next { c with off := off, numRead := c.numRead - (off - old) }) ∧
      old + 1 ≤ off ∧ off ≤ old + 11 := by
  have hk : kMaxSize = 11 := rfl
  unfold processSize
  obtain ⟨r, o, e, h2, h3⟩ := withRange_total suffixy_decodeInt64C c.buf c.off (old + kMaxSize) (by omega) (by omega) (by omega)
  have e' : decodeSize c.buf c.off (old + kMaxSize) = .ok (r, o) := e
  rw [e']
  rcases r with _ | t
  · exact .inl ⟨_, _, rfl⟩
  · exact .inr ⟨_, _, rfl, by omega, by omega⟩

/-- SETTINGS, not too near to the end of the buffer. -/
theorem processSettings_cases (id : Bytes) (c : RcvConn) (old : Int) (h0 : 0 ≤ old) (ho : c.off = old + 1)
    (h1 : old + kMaxVersion + kMaxSettings ≤ c.buf.length) :
    (∃ obs o, processSettings id c old = .ok (obs, .stop o)) ∨
    ∃ obs off ver footer, processSettings id c old =
        .ok (obs, .next { c with off := off, numRead := c.numRead - (off - old), ver := ver, footer := footer }) ∧
      old + 1 ≤ off ∧ off ≤ old + kMaxVersion + kMaxSettings ∧ off - old ≤ 38 + id.length := by
  have hk : kMaxVersion = 10 := rfl
  have hk2 : kMaxSettings = 1056 := rfl
  unfold processSettings
  obtain ⟨r, o, e, h2, h3⟩ := withRange_total suffixy_decodeInt32C c.buf c.off (old + kMaxVersion) (by omega) (by omega) (by omega)
  have e' : decodeVersion c.buf c.off (old + kMaxVersion) = .ok (r, o) := e
  rw [e']
  rcases r with _ | v
  · exact .inl ⟨_, _, rfl⟩
  simp only
  rcases hr : receiverOnSettings v c.ver with ⟨ver, _ | w | _⟩
  · simp only
    obtain ⟨r, o2, e2, h4, h5, _⟩ := C08_decodeSettings_total ver {} c.buf o (old + kMaxVersion + kMaxSettings) (by omega)
    rw [e2]
    rcases r with _ | s
    · exact .inl ⟨_, _, rfl⟩
    simp only
    have hc := decodeSettings_cons (by omega) (by omega) (by omega) e2
    by_cases g : s.transferId ≠ id
    · rw [if_pos g]; exact .inl ⟨_, _, rfl⟩
    rw [if_neg g]
    have g : s.transferId = id := Classical.not_not.1 g
    rw [g] at hc
    by_cases g2 : s.sendFileChunks
    · rw [if_pos g2]; exact .inl ⟨_, _, rfl⟩
    · rw [if_neg g2]
      exact .inr ⟨_, _, _, _, rfl, by omega, by omega, by omega⟩
  · exact .inl ⟨_, _, rfl⟩
  · exact .inl ⟨_, _, rfl⟩

/-- The footer. -/
theorem processFooter_cases (frag : List Int → Nat) (crc : Int → UInt8 → Int) (b : BlockDetails) (data : Bytes) (c : RcvConn)
    {L : Int} (hL : (c.buf.length : Int) = L) (h0 : 0 ≤ c.off) (hn : 0 ≤ c.numRead) (hr : c.off + c.numRead ≤ L) :
    (∃ obs o, processFooter frag crc b data c = .ok (obs, .stop o)) ∨
    (processFooter frag crc b data c = .error .check ∧ L < c.off + 256) ∨
    ∃ obs c', processFooter frag crc b data c = .ok (obs, .next c') ∧ (c'.buf.length : Int) = L ∧ c.off ≤ c'.off ∧
      0 ≤ c'.numRead ∧ c'.off + c'.numRead ≤ L ∧
      c'.off + c'.numRead + c'.net.rest.length = c.off + c.numRead + c.net.rest.length := by
  have hk : kMinBufLength = 256 := rfl
  have hk2 : kMaxFooter = 11 := rfl
  unfold processFooter
  by_cases hroom : L < c.off + 256
  · right; left
    refine ⟨?_, hroom⟩
    unfold readAtLeast
    rw [if_neg (by omega), if_neg (by omega), if_pos (by omega)]
  obtain ⟨buf, n, net, e, hl, h1, h2, h3, _⟩ := readAtLeast_spec frag c.off (c.buf.length - c.off) kMinBufLength c.buf c.numRead c.net
    h0 (by omega) (by omega) hn (by omega) (by omega)
  rw [e]
  simp only
  have hsum : (n : Int) + net.rest.length = c.numRead + c.net.rest.length := by
    have := congrArg List.length h3
    rw [List.length_append, List.length_append] at this
    have e1 := seg_length buf c.off (c.off + n) h0 (by omega) (by omega)
    have e2 := seg_length c.buf c.off (c.off + c.numRead) h0 (by omega) (by omega)
    omega
  by_cases g : n < kMinBufLength
  · rw [if_pos g]; exact .inl ⟨_, _, rfl⟩
  rw [if_neg g]
  obtain ⟨x, hx⟩ := loadByte_ok (buf := buf) (p := c.off) h0 (by omega)
  rw [hx]
  simp only
  by_cases g2 : x ≠ FOOTER_CMD
  · rw [if_pos g2]; exact .inl ⟨_, _, rfl⟩
  rw [if_neg g2]
  obtain ⟨r, o, e4, h4, h5⟩ := withRange_total suffixy_decodeInt32 buf (c.off + 1) (c.off + kMaxFooter) (by omega) (by omega) (by omega)
  have e' : decodeFooter buf (c.off + 1) (c.off + kMaxFooter) = .ok (r, o) := e4
  rw [e']
  rcases r with _ | sum
  · exact .inl ⟨_, _, rfl⟩
  simp only
  by_cases g3 : data.foldl crc 0 ≠ sum
  · rw [if_pos g3]; exact .inl ⟨_, _, rfl⟩
  · rw [if_neg g3]
    refine .inr (.inr ⟨_, _, rfl, by dsimp only; omega, by dsimp only; omega, by dsimp only; omega, by dsimp only; omega, ?_⟩)
    dsimp only
    omega

/-- Bytes that are left behind a block. -/
theorem keepLeftover_cases (c : RcvConn) (rem : Int) {L : Int} (hL : (c.buf.length : Int) = L) (h0 : 0 ≤ c.off)
    (hoff : c.off ≤ L) (hr : c.off + rem ≤ L) (hr0 : 0 ≤ rem) :
    ∃ c', keepLeftover c rem = .ok c' ∧ (c'.buf.length : Int) = L ∧ 0 ≤ c'.off ∧ c'.off ≤ c.off ∧ c'.numRead = rem ∧
      c'.net = c.net ∧ (2 * c'.off ≤ L ∨ c'.off + kMaxHeader ≤ L) := by
  have hk : kMaxHeader = 4150 := rfl
  unfold keepLeftover
  by_cases g : rem > 0
  · rw [if_pos g]
    by_cases g2 : rem < kMaxHeader ∧ c.off > (c.buf.length : Int) / 2
    · rw [if_pos g2]
      obtain ⟨bs, hb, hl⟩ := loadBytes_in (buf := c.buf) (p := c.off) (n := rem.toNat) h0 (by omega)
      rw [hb]
      simp only
      have hs := storeBytes_ok bs c.buf 0 (by omega) (by omega)
      rw [hs]
      exact ⟨_, rfl, by dsimp only; rw [splice_length _ _ _ (by simp; omega)]; exact hL, Int.le_refl _, h0, rfl, rfl, .inl (by dsimp only; omega)⟩
    · rw [if_neg g2]
      exact ⟨_, rfl, hL, h0, Int.le_refl _, rfl, rfl, by dsimp only; omega⟩
  · rw [if_neg g]
    exact ⟨_, rfl, hL, Int.le_refl _, h0, by dsimp only; omega, rfl, .inl (by dsimp only; omega)⟩

/-- What a FILE command can lead to. -/
def FileCases (L N old : Int) (m : Int) (r : Except Fault (List RObs × RNext)) : Prop :=
  (∃ obs o, r = .ok (obs, .stop o)) ∨ (r = .error .check ∧ L < N + 32767 ∧ L < old + 65534) ∨
  ∃ obs c', r = .ok (obs, .next c') ∧ (c'.buf.length : Int) = L ∧ 0 ≤ c'.off ∧ 0 ≤ c'.numRead ∧ c'.off + c'.numRead ≤ L ∧
    c'.off + c'.numRead + c'.net.rest.length ≤ N ∧ c'.numRead + c'.net.rest.length < m

theorem processBlock_cases (frag : List Int → Nat) (crc : Int → UInt8 → Int) (b : BlockDetails) (c : RcvConn) (old : Int)
    {L N m : Int} (hd : 0 ≤ b.dataSize) (hL : (c.buf.length : Int) = L) (h0 : 0 ≤ old) (ho : old < c.off)
    (hn : c.off ≤ c.numRead + old) (hr : c.numRead + old ≤ L) (hN : old + c.numRead + c.net.rest.length ≤ N)
    (hm : c.numRead + c.net.rest.length ≤ m) : FileCases L N old m (processBlock frag crc b c old) := by
  unfold processBlock
  rw [if_neg (by omega)]
  obtain ⟨first, hf, hfl⟩ := loadBytes_in (buf := c.buf) (p := c.off) (n := (min (c.numRead + old - c.off) b.dataSize).toNat)
    (by omega) (by omega)
  rw [hf]
  simp only
  obtain ⟨buf, net, e, hbl, hrest, _⟩ := readBlockLoop_spec frag (c.net.rest.length + 1) c.buf
    (b.dataSize - min (c.numRead + old - c.off) b.dataSize) c.net (by omega) (by omega) (by omega)
  rw [e]
  simp only
  have hrl : net.rest.length ≤ c.net.rest.length := by rw [hrest, List.length_drop]; omega
  split
  · exact .inl ⟨_, _, rfl⟩
  obtain ⟨c', e', k1, k2, k3, k4, k5, k6⟩ := keepLeftover_cases { c with buf := buf, net := net, off := c.off + first.length }
    (c.numRead + old - c.off - first.length) (L := L) (by dsimp only; omega) (by dsimp only; omega) (by dsimp only; omega)
    (by dsimp only; omega) (by omega)
  rw [e']
  dsimp only at k3 k5
  have hk : kMaxHeader = 4150 := rfl
  simp only
  have k7 : c'.net.rest.length = net.rest.length := by rw [k5]
  split
  · rcases processFooter_cases frag crc b (first ++ c.net.rest.take (b.dataSize - min (c.numRead + old - c.off) b.dataSize).toNat) c'
      (L := L) k1 k2 (by omega) (by omega) with ⟨obs, o, h⟩ | ⟨h, h'⟩ | ⟨obs, c2, h, l1, l2, l3, l4, l5⟩
    · rw [h]; exact .inl ⟨_, _, rfl⟩
    · rw [h]; exact .inr (.inl ⟨rfl, by omega, by omega⟩)
    · rw [h]; exact .inr (.inr ⟨_, _, rfl, l1, by omega, l3, l4, by omega, by omega⟩)
  · exact .inr (.inr ⟨_, _, rfl, k1, k2, by omega, by omega, by omega, by omega⟩)

theorem loadInt16_in {buf : Bytes} {p : Int} (h0 : 0 ≤ p) (h1 : p + 2 ≤ buf.length) :
    ∃ n, loadInt16 buf p = .ok n ∧ n ≤ 32767 := by
  unfold loadInt16
  obtain ⟨bs, e, hb⟩ := loadBytes_in (buf := buf) (p := p) (n := 2) h0 (by omega)
  rw [e]
  exact ⟨_, rfl, by have := leNat_lt bs; rw [hb] at this; split <;> omega⟩

theorem processFile_cases (frag : List Int → Nat) (crc : Int → UInt8 → Int) (c : RcvConn) (old : Int)
    {L N m : Int} (hL : (c.buf.length : Int) = L) (h0 : 0 ≤ old) (ho : c.off = old + 1) (hn : 256 ≤ c.numRead)
    (hr : c.numRead + old ≤ L) (hN : old + c.numRead + c.net.rest.length ≤ N)
    (hm : c.numRead + c.net.rest.length ≤ m) : FileCases L N old m (processFile frag crc c old) := by
  unfold processFile
  obtain ⟨h, hh, hh2⟩ := loadInt16_in (buf := c.buf) (p := c.off + 1) (by omega) (by omega)
  rw [hh]
  simp only
  by_cases g : h ≤ 0
  · rw [if_pos g]; exact .inl ⟨_, _, rfl⟩
  rw [if_neg g]
  have key : (∃ buf n net, (if h > c.numRead then
          readAtLeast frag (old + c.numRead) (c.buf.length - (old + c.numRead)) h c.buf c.numRead c.net
        else .ok (c.buf, c.numRead, c.net)) = .ok (buf, n, net) ∧ (buf.length : Int) = L ∧ c.numRead ≤ n ∧ n + old ≤ L ∧
        n + net.rest.length = c.numRead + c.net.rest.length) ∨
      ((if h > c.numRead then
          readAtLeast frag (old + c.numRead) (c.buf.length - (old + c.numRead)) h c.buf c.numRead c.net
        else .ok (c.buf, c.numRead, c.net)) = .error .check ∧ L < N + 32767 ∧ L < old + 65534) := by
    by_cases g1 : h > c.numRead
    · rw [if_pos g1]
      by_cases g2 : h > c.buf.length - (old + c.numRead)
      · right
        refine ⟨?_, by omega, by omega⟩
        unfold readAtLeast
        rw [if_neg (by omega), if_neg (by omega), if_pos g2]
      · left
        obtain ⟨buf, n, net, e, hl, h1, h2, h3, _⟩ := readAtLeast_spec frag (old + c.numRead) (c.buf.length - (old + c.numRead)) h
          c.buf c.numRead c.net (by omega) (by omega) (by omega) (by omega) (by omega) (by omega)
        refine ⟨buf, n, net, e, by omega, h1, by omega, ?_⟩
        have := congrArg List.length h3
        rw [List.length_append, List.length_append] at this
        have e1 := seg_length buf (old + c.numRead) (old + c.numRead + n) (by omega) (by omega) (by omega)
        have e2 := seg_length c.buf (old + c.numRead) (old + c.numRead + c.numRead) (by omega) (by omega) (by omega)
        omega
    · rw [if_neg g1]
      exact .inl ⟨_, _, _, rfl, hL, Int.le_refl _, hr, rfl⟩
  rcases key with ⟨buf, n, net, e, k1, k2, k3, k4⟩ | ⟨e, k⟩
  · rw [e]
    simp only
    by_cases g3 : n < h
    · rw [if_pos g3]; exact .inl ⟨_, _, rfl⟩
    rw [if_neg g3]
    obtain ⟨d, off, e5, h5, h6⟩ := C05_decodeHeader_total c.ver buf (c.off + 3) (n + old) (by omega) (by omega) (by omega)
    rw [e5]
    simp only
    by_cases g4 : h ≠ off - old
    · rw [if_pos g4]; exact .inl ⟨_, _, rfl⟩
    rw [if_neg g4]
    rcases d with _ | b
    · exact .inl ⟨_, _, rfl⟩
    simp only
    split
    · exact .inl ⟨_, _, rfl⟩
    · exact processBlock_cases frag crc b _ old (decodeHeader_size e5) (by dsimp only; exact k1) h0 (by dsimp only; omega)
        (by dsimp only; omega) (by dsimp only; omega) (by dsimp only; omega) (by dsimp only; omega)
  · rw [e]; exact .inr (.inl ⟨rfl, k⟩)

/-- One command, whatever the bytes. -/
theorem readNextCmd_cases (frag : List Int → Nat) (crc : Int → UInt8 → Int) (id : Bytes) {L N : Int} {c : RcvConn}
    (hi : c.Inv L N) : StepCases frag id L N c (readNextCmd frag crc id c) := by
  obtain ⟨hL, h0, h1, hroom, hN⟩ := hi
  have hk : kMinBufLength = 256 := rfl
  have hk1 : kMaxDone = 22 := rfl
  have hk2 : kMaxSize = 11 := rfl
  have hk3 : kMaxVersion = 10 := rfl
  have hk4 : kMaxSettings = 1056 := rfl
  unfold readNextCmd
  by_cases hneg : c.numRead < 0
  · have : readAtLeast frag c.off (c.buf.length - c.off) kMinBufLength c.buf c.numRead c.net = .error .check := by
      unfold readAtLeast; rw [if_pos hneg]
    rw [this]
    exact .check (.inl hneg)
  have hroom := hroom (by omega)
  by_cases hsp : L < c.off + 256
  · have : readAtLeast frag c.off (c.buf.length - c.off) kMinBufLength c.buf c.numRead c.net = .error .check := by
      unfold readAtLeast
      rw [if_neg (by omega), if_neg (by omega), if_pos (by omega)]
    rw [this]
    exact .check (.inr ⟨by omega, by omega⟩)
  obtain ⟨buf, n, net, e, hl, hn1, hn2, h3, _⟩ := readAtLeast_spec frag c.off (c.buf.length - c.off) kMinBufLength c.buf c.numRead c.net
    h0 (by omega) (by omega) (by omega) (by omega) (by omega)
  have hsum : (n : Int) + net.rest.length = c.numRead + c.net.rest.length := by
    have := congrArg List.length h3
    rw [List.length_append, List.length_append] at this
    have e1 := seg_length buf c.off (c.off + n) h0 (by omega) (by omega)
    have e2 := seg_length c.buf c.off (c.off + c.numRead) h0 (by omega) (by omega)
    omega
  rw [e]
  simp only
  by_cases g : n < kMinBufLength
  · rw [if_pos g]; exact .stop _ _
  rw [if_neg g]
  obtain ⟨x, hx⟩ := loadByte_ok (buf := buf) (p := c.off) h0 (by omega)
  rw [hx]
  simp only
  by_cases x1 : x = DONE_CMD
  · rw [if_pos x1]
    obtain ⟨obs, o, h⟩ := processDone_stops { c with buf := buf, numRead := n, net := net, off := c.off + 1 } c.off h0 rfl
      (by dsimp only; omega)
    rw [h]; exact .stop _ _
  rw [if_neg x1]
  by_cases x2 : x = FILE_CMD
  · rw [if_pos x2]
    rcases processFile_cases frag crc { c with buf := buf, numRead := n, net := net, off := c.off + 1 } c.off (L := L) (N := N)
      (m := c.numRead + c.net.rest.length) (by dsimp only; omega) h0 rfl (by dsimp only; omega) (by dsimp only; omega)
      (by dsimp only; omega) (by dsimp only; omega) with ⟨obs, o, h⟩ | ⟨h, h'⟩ | ⟨obs, c2, h, l1, l2, l3, l4, l5, l6⟩
    · rw [h]; exact .stop _ _
    · rw [h]; exact .check (.inr h')
    · rw [h]; exact .next _ _ ⟨l1, l2, by omega, fun _ => l4, l5⟩ (by omega) l6 (fun _ => l3)
  rw [if_neg x2]
  by_cases x3 : x = SETTINGS_CMD
  · rw [if_pos x3]
    by_cases hend : L < c.off + kMaxVersion + kMaxSettings
    · have hub : SettingsAtEnd frag c := ⟨buf, n, net, e, by omega, x3 ▸ hx, by omega⟩
      unfold processSettings
      dsimp only
      obtain ⟨r, o, e1, h2, h3⟩ := withRange_total suffixy_decodeInt32C buf (c.off + 1) (c.off + kMaxVersion) (by omega) (by omega) (by omega)
      have e' : decodeVersion buf (c.off + 1) (c.off + kMaxVersion) = .ok (r, o) := e1
      rw [e']
      rcases r with _ | v
      · exact .stop _ _
      simp only
      rcases hr : receiverOnSettings v c.ver with ⟨ver, _ | w | _⟩
      · simp only
        have : decodeSettings ver {} buf o (c.off + kMaxVersion + kMaxSettings) = .error .ub := by
          unfold decodeSettings makeByteRange
          rw [if_neg (by omega), if_neg (by omega), if_neg (by omega), if_pos (by omega)]
        rw [this]
        exact .ub hub
      · exact .stop _ _
      · exact .stop _ _
    · rcases processSettings_cases id { c with buf := buf, numRead := n, net := net, off := c.off + 1 } c.off h0 rfl
        (by dsimp only; omega) with ⟨obs, o, h⟩ | ⟨obs, off, ver, footer, h, l1, l2, l3⟩
      · rw [h]; exact .stop _ _
      · rw [h]
        refine .next _ _ ⟨by dsimp only; omega, by dsimp only; omega, by dsimp only; omega, fun _ => by dsimp only; omega, by dsimp only; omega⟩
          (by omega) (by dsimp only; omega) (fun _ => by dsimp only; omega)
  rw [if_neg x3]
  by_cases x4 : x = SIZE_CMD
  · rw [if_pos x4]
    rcases processSize_cases { c with buf := buf, numRead := n, net := net, off := c.off + 1 } c.off h0 rfl
      (by dsimp only; omega) with ⟨obs, o, h⟩ | ⟨obs, off, h, l1, l2⟩
    · rw [h]; exact .stop _ _
    · rw [h]
      exact .next _ _ ⟨by dsimp only; omega, by dsimp only; omega, by dsimp only; omega, fun _ => by dsimp only; omega, by dsimp only; omega⟩
        (by omega) (by dsimp only; omega) (fun _ => by dsimp only; omega)
  · rw [if_neg x4]; exact .stop _ _

end Wdt
