import Verif.Model.SockReceive
import Verif.Lemmas.ReceiverStream
/-
A socket that hands out the bytes of a stream makes a receiver thread do what the
stream itself would make it do.
-/
namespace Wdt

section
variable {σ : Type} {K : Sock σ} {frag : List Int → Nat} {R : σ → RNet → Prop}

/-- The socket `K` in state `s` hands out the bytes of `net`, cut like `frag` says. -/
structure SockSim (K : Sock σ) (frag : List Int → Nat) (R : σ → RNet → Prop) : Prop where
  read : ∀ s net n, R s net → 0 < n → ∃ ret s', K.read n s = .ok (ret, (netRead frag n net).1, s')
    ∧ R s' (netRead frag n net).2 ∧ ((netRead frag n net).1 = [] → ret ≤ 0)
    ∧ ((netRead frag n net).1 ≠ [] → ret = (netRead frag n net).1.length)
  left : ∀ s net, R s net → net.rest.length ≤ K.left s

/-- Same result of `readAtLeast`. -/
def SameRead (R : σ → RNet → Prop) (atLeast : Int) (n : Nat) :
    Except Fault (Bytes × Int × RNet) → Except Fault (Bytes × Int × σ) → Prop
  | .error f, y => f = .hang ∨ y = .error f
  | .ok (b, l, net), y => b.length = n ∧ ∃ l' s', y = .ok (b, l', s') ∧ R s' net
      ∧ (l' = l ∨ (l < atLeast ∧ l' < atLeast))

theorem storeBytes_len {buf bs buf' : Bytes} {p : Int} (h : storeBytes buf p bs = .ok buf') : buf'.length = buf.length := by
  unfold storeBytes at h
  split at h
  · cases h; rfl
  · split at h
    · cases h
      simp only [List.length_append, List.length_take, List.length_drop]
      omega
    · cases h

theorem sReadAtLeastLoop_sim (hS : SockSim K frag R) (base max atLeast : Int) (hm : atLeast ≤ max) :
    ∀ (fuel fuel' : Nat) (buf : Bytes) (len : Int) (net : RNet) (s : σ), R s net → fuel ≤ fuel' →
      SameRead R atLeast buf.length (readAtLeastLoop frag base max atLeast fuel buf len net)
        (sReadAtLeastLoop K base max atLeast fuel' buf len s) := by
  intro fuel
  induction fuel with
  | zero => intro fuel' buf len net s _ _; exact .inl rfl
  | succ fuel ih =>
    intro fuel' buf len net s hR hf
    obtain ⟨fuel', rfl⟩ : ∃ k, fuel' = k + 1 := ⟨fuel' - 1, by omega⟩
    rw [readAtLeastLoop, sReadAtLeastLoop]
    by_cases hlt : len < atLeast
    · rw [if_pos hlt, if_pos hlt]
      obtain ⟨ret, s', e, hR', h0, h1⟩ := hS.read s net (max - len) hR (by omega)
      rw [e]
      simp only
      by_cases hd : (netRead frag (max - len) net).1 = []
      · rw [if_pos hd]
        have := h0 hd
        refine ⟨rfl, ?_⟩
        by_cases hneg : ret < 0
        · rw [if_pos hneg]
          refine ⟨_, s', rfl, hR', ?_⟩
          by_cases hl : len = 0
          · rw [if_pos hl]; right; omega
          · rw [if_neg hl]; left; rfl
        · rw [if_neg hneg, if_pos (by omega)]
          exact ⟨_, s', rfl, hR', .inl rfl⟩
      · have hret := h1 hd
        have hpos : 0 < (netRead frag (max - len) net).1.length := List.length_pos_iff.2 hd
        rw [if_neg hd, if_neg (by omega), if_neg (by omega)]
        cases hst : storeBytes buf (base + len) (netRead frag (max - len) net).1 with
        | error f => exact .inr rfl
        | ok buf' =>
          simp only
          have := ih fuel' buf' (len + ret) _ s' hR' (by omega)
          rw [storeBytes_len hst] at this
          rw [hret] at this ⊢
          exact this
    · rw [if_neg hlt, if_neg hlt]
      exact ⟨rfl, _, s, rfl, hR, .inl rfl⟩

theorem sReadAtLeast_sim (hS : SockSim K frag R) (base max atLeast : Int) (buf : Bytes) (len : Int) (net : RNet)
    (s : σ) (hR : R s net) :
    SameRead R atLeast buf.length (readAtLeast frag base max atLeast buf len net)
      (sReadAtLeast K base max atLeast buf len s) := by
  unfold readAtLeast sReadAtLeast
  by_cases h1 : len < 0
  · rw [if_pos h1, if_pos h1]; exact .inr rfl
  rw [if_neg h1, if_neg h1]
  by_cases h2 : atLeast ≤ 0
  · rw [if_pos h2, if_pos h2]; exact .inr rfl
  rw [if_neg h2, if_neg h2]
  by_cases h3 : atLeast > max
  · rw [if_pos h3, if_pos h3]; exact .inr rfl
  rw [if_neg h3, if_neg h3]
  exact sReadAtLeastLoop_sim hS base max atLeast (by omega) _ _ _ _ _ _ hR (by have := hS.left s net hR; omega)

/-- Same result of the loop over a block. -/
def SameBlock (R : σ → RNet → Prop) (n : Nat) :
    Except Fault (Bytes × Bytes × RNet) → Except Fault (Bytes × Bytes × σ) → Prop
  | .error f, y => f = .hang ∨ y = .error f
  | .ok (b, d, net), y => b.length = n ∧ ∃ s', y = .ok (b, d, s') ∧ R s' net

theorem sReadBlockLoop_sim (hS : SockSim K frag R) :
    ∀ (fuel fuel' : Nat) (buf : Bytes) (missing : Int) (net : RNet) (s : σ), R s net → fuel ≤ fuel' → 0 < buf.length →
      SameBlock R buf.length (readBlockLoop frag fuel buf missing net) (sReadBlockLoop K fuel' buf missing s) := by
  intro fuel
  induction fuel with
  | zero => intro fuel' buf missing net s _ _ _; exact .inl rfl
  | succ fuel ih =>
    intro fuel' buf missing net s hR hf hb
    obtain ⟨fuel', rfl⟩ : ∃ k, fuel' = k + 1 := ⟨fuel' - 1, by omega⟩
    rw [readBlockLoop, sReadBlockLoop]
    by_cases hlt : missing > 0
    · rw [if_pos hlt, if_pos hlt]
      obtain ⟨ret, s', e, hR', h0, h1⟩ := hS.read s net (min missing buf.length) hR (by omega)
      rw [e]
      simp only
      by_cases hd : (netRead frag (min missing buf.length) net).1 = []
      · rw [if_pos hd, if_pos (h0 hd)]
        exact ⟨rfl, s', rfl, hR'⟩
      · have hret := h1 hd
        have hpos : 0 < (netRead frag (min missing buf.length) net).1.length := List.length_pos_iff.2 hd
        rw [if_neg hd, if_neg (by omega)]
        cases hst : storeBytes buf 0 (netRead frag (min missing buf.length) net).1 with
        | error f => exact .inr rfl
        | ok buf' =>
          simp only
          have hl := storeBytes_len hst
          have := ih fuel' buf' (missing - ret) _ s' hR' (by omega) (by omega)
          rw [hret] at this ⊢
          rw [hl] at this
          generalize readBlockLoop frag fuel buf' (missing - ((netRead frag (min missing buf.length) net).1.length : Int))
            (netRead frag (min missing buf.length) net).2 = x at this ⊢
          generalize sReadBlockLoop K fuel' buf' (missing - ((netRead frag (min missing buf.length) net).1.length : Int)) s' = y at this ⊢
          match x, this with
          | .error f, .inl h => exact .inl h
          | .error f, .inr h => rw [h]; exact .inr rfl
          | .ok (b, d, net'), ⟨hn, s'', h, hR''⟩ =>
            rw [h]
            exact ⟨hn, s'', rfl, hR''⟩
    · rw [if_neg hlt, if_neg hlt]
      exact ⟨rfl, s, rfl, hR⟩

/-- The same thread state, apart from the connection. -/
def SameConn (c₀ c : RcvConn) : Prop := ∃ n₀, c₀ = { c with net := n₀ }

/-- Same result of a handler. -/
def SameNext (R : σ → RNet → Prop) : Except Fault (List RObs × RNext) → Except Fault (List RObs × RNext × σ) → Prop
  | .error f, y => f = .hang ∨ y = .error f
  | .ok (obs, .stop o), y => ∃ s', y = .ok (obs, .stop o, s')
  | .ok (obs, .next c), y => ∃ s' c₀, y = .ok (obs, .next c₀, s') ∧ SameConn c₀ c ∧ R s' c.net

theorem sameNext_stop {obs : List RObs} {o : ROut} {s : σ} :
    SameNext R (.ok (obs, .stop o)) (.ok (obs, .stop o, s)) := ⟨s, rfl⟩

theorem sProcessFooter_sim (hS : SockSim K frag R) (crc : Int → UInt8 → Int) (b : BlockDetails) (data : Bytes)
    (c₀ c : RcvConn) (s : σ) (hc : SameConn c₀ c) (hR : R s c.net) :
    SameNext R (processFooter frag crc b data c) (sProcessFooter K crc b data c₀ s) := by
  obtain ⟨n₀, rfl⟩ := hc
  unfold processFooter sProcessFooter
  simp only
  have h := sReadAtLeast_sim hS c.off (c.buf.length - c.off) kMinBufLength c.buf c.numRead c.net s hR
  generalize readAtLeast frag c.off (c.buf.length - c.off) kMinBufLength c.buf c.numRead c.net = x at h ⊢
  generalize sReadAtLeast K c.off (c.buf.length - c.off) kMinBufLength c.buf c.numRead s = y at h ⊢
  match x, h with
  | .error f, .inl h => exact .inl h
  | .error f, .inr h => rw [h]; exact .inr rfl
  | .ok (buf, l, net), ⟨hn, l', s', h, hR', hl⟩ =>
    rw [h]
    simp only
    by_cases hk : l < kMinBufLength
    · rw [if_pos hk, if_pos (by rcases hl with h | h <;> omega)]
      exact ⟨s', rfl⟩
    · have : l' = l := by rcases hl with h | h <;> omega
      subst this
      rw [if_neg hk, if_neg hk]
      cases loadByte buf c.off with
      | error f => exact .inr rfl
      | ok cmd =>
        simp only
        by_cases hcmd : cmd ≠ FOOTER_CMD
        · rw [if_pos hcmd, if_pos hcmd]; exact ⟨s', rfl⟩
        · rw [if_neg hcmd, if_neg hcmd]
          cases decodeFooter buf (c.off + 1) (c.off + kMaxFooter) with
          | error f => exact .inr rfl
          | ok q =>
            obtain ⟨q, off⟩ := q
            cases q with
            | none => exact ⟨s', rfl⟩
            | some sum =>
              simp only
              by_cases hs : data.foldl crc 0 ≠ sum
              · rw [if_pos hs, if_pos hs]; exact ⟨s', rfl⟩
              · rw [if_neg hs, if_neg hs]
                exact ⟨s', _, rfl, ⟨n₀, rfl⟩, hR'⟩

theorem keepLeftover_net (c : RcvConn) (n₀ : RNet) (remaining : Int) :
    keepLeftover { c with net := n₀ } remaining
      = (match keepLeftover c remaining with
        | .error f => .error f
        | .ok c' => .ok { c' with net := n₀ }) ∧
    ∀ c', keepLeftover c remaining = .ok c' → c'.net = c.net := by
  unfold keepLeftover
  by_cases h : remaining > 0
  · simp only [if_pos h]
    by_cases h2 : remaining < kMaxHeader ∧ c.off > (c.buf.length : Int) / 2
    · simp only [if_pos h2]
      cases loadBytes c.buf c.off remaining.toNat with
      | error f => exact ⟨rfl, fun c' h => by cases h⟩
      | ok bs =>
        simp only
        cases storeBytes c.buf 0 bs with
        | error f => exact ⟨rfl, fun c' h => by cases h⟩
        | ok buf' => exact ⟨rfl, fun c' h => by cases h; rfl⟩
    · simp only [if_neg h2]; exact ⟨trivial, fun c' h => by cases h; rfl⟩
  · simp only [if_neg h]; exact ⟨trivial, fun c' h => by cases h; rfl⟩

theorem sProcessBlock_sim (hS : SockSim K frag R) (crc : Int → UInt8 → Int) (b : BlockDetails)
    (c₀ c : RcvConn) (old : Int) (s : σ) (hc : SameConn c₀ c) (hR : R s c.net) (hb : 0 < c.buf.length) :
    SameNext R (processBlock frag crc b c old) (sProcessBlock K crc b c₀ old s) := by
  obtain ⟨n₀, rfl⟩ := hc
  unfold processBlock sProcessBlock
  simp only
  by_cases h1 : c.numRead + old - c.off < 0
  · rw [if_pos h1, if_pos h1]; exact .inr rfl
  rw [if_neg h1, if_neg h1]
  cases loadBytes c.buf c.off (min (c.numRead + old - c.off) b.dataSize).toNat with
  | error f => exact .inr rfl
  | ok first =>
    simp only
    have h := sReadBlockLoop_sim hS (c.net.rest.length + 1) (K.left s + 1) c.buf
      (b.dataSize - min (c.numRead + old - c.off) b.dataSize) c.net s hR (by have := hS.left s _ hR; omega) hb
    generalize readBlockLoop frag (c.net.rest.length + 1) c.buf
      (b.dataSize - min (c.numRead + old - c.off) b.dataSize) c.net = x at h ⊢
    generalize sReadBlockLoop K (K.left s + 1) c.buf
      (b.dataSize - min (c.numRead + old - c.off) b.dataSize) s = y at h ⊢
    match x, h with
    | .error f, .inl h => exact .inl h
    | .error f, .inr h => rw [h]; exact .inr rfl
    | .ok (buf, more, net), ⟨hn, s', h, hR'⟩ =>
      rw [h]
      simp only
      by_cases h2 : ((first ++ more).length : Int) ≠ b.dataSize
      · rw [if_pos h2, if_pos h2]; exact ⟨s', rfl⟩
      rw [if_neg h2, if_neg h2]
      have hk := keepLeftover_net { c with buf := buf, net := net, off := c.off + first.length } n₀
        (c.numRead + old - c.off - first.length)
      simp only at hk
      rw [hk.1]
      cases hkl : keepLeftover { c with buf := buf, net := net, off := c.off + first.length }
          (c.numRead + old - c.off - first.length) with
      | error f => exact .inr rfl
      | ok c' =>
        simp only
        have hnet : c'.net = net := hk.2 c' hkl
        by_cases hf : c'.footer = true
        · rw [if_pos hf, if_pos hf]
          have h3 := sProcessFooter_sim hS crc b (first ++ more) { c' with net := n₀ } c' s' ⟨n₀, rfl⟩ (by rw [hnet]; exact hR')
          generalize processFooter frag crc b (first ++ more) c' = x at h3 ⊢
          generalize sProcessFooter K crc b (first ++ more) { c' with net := n₀ } s' = y at h3 ⊢
          match x, h3 with
          | .error f, .inl h => exact .inl h
          | .error f, .inr h => rw [h]; exact .inr rfl
          | .ok (obs, .stop o), ⟨s'', h⟩ => rw [h]; exact ⟨s'', rfl⟩
          | .ok (obs, .next c''), ⟨s'', c₁, h, h5, h6⟩ => rw [h]; exact ⟨s'', c₁, rfl, h5, h6⟩
        · rw [if_neg hf, if_neg hf]
          exact ⟨s', _, rfl, ⟨n₀, rfl⟩, by rw [hnet]; exact hR'⟩

theorem loadInt16_pos {buf : Bytes} {p h : Int} (e : loadInt16 buf p = .ok h) : 0 < buf.length := by
  cases buf with
  | nil => simp [loadInt16, loadBytes, loadByte] at e
  | cons _ _ => simp

theorem sProcessFile_sim (hS : SockSim K frag R) (crc : Int → UInt8 → Int)
    (c₀ c : RcvConn) (old : Int) (s : σ) (hc : SameConn c₀ c) (hR : R s c.net) :
    SameNext R (processFile frag crc c old) (sProcessFile K crc c₀ old s) := by
  obtain ⟨n₀, rfl⟩ := hc
  unfold processFile sProcessFile
  simp only
  cases hh : loadInt16 c.buf (c.off + 1) with
  | error f => exact .inr rfl
  | ok headerLen =>
    have hb := loadInt16_pos hh
    simp only
    by_cases h1 : headerLen ≤ 0
    · rw [if_pos h1, if_pos h1]; exact ⟨s, rfl⟩
    rw [if_neg h1, if_neg h1]
    have h : SameRead R headerLen c.buf.length
        (if headerLen > c.numRead then
          readAtLeast frag (old + c.numRead) (c.buf.length - (old + c.numRead)) headerLen c.buf c.numRead c.net
        else .ok (c.buf, c.numRead, c.net))
        (if headerLen > c.numRead then
          sReadAtLeast K (old + c.numRead) (c.buf.length - (old + c.numRead)) headerLen c.buf c.numRead s
        else .ok (c.buf, c.numRead, s)) := by
      by_cases h2 : headerLen > c.numRead
      · rw [if_pos h2, if_pos h2]
        exact sReadAtLeast_sim hS _ _ _ _ _ _ _ hR
      · rw [if_neg h2, if_neg h2]
        exact ⟨rfl, _, s, rfl, hR, .inl rfl⟩
    generalize (if headerLen > c.numRead then
          readAtLeast frag (old + c.numRead) (c.buf.length - (old + c.numRead)) headerLen c.buf c.numRead c.net
        else .ok (c.buf, c.numRead, c.net)) = x at h ⊢
    generalize (if headerLen > c.numRead then
          sReadAtLeast K (old + c.numRead) (c.buf.length - (old + c.numRead)) headerLen c.buf c.numRead s
        else .ok (c.buf, c.numRead, s)) = y at h ⊢
    match x, h with
    | .error f, .inl h => exact .inl h
    | .error f, .inr h => rw [h]; exact .inr rfl
    | .ok (buf, l, net), ⟨hn, l', s', h, hR', hl⟩ =>
      rw [h]
      simp only
      by_cases hk : l < headerLen
      · rw [if_pos hk, if_pos (by rcases hl with h | h <;> omega)]
        exact ⟨s', rfl⟩
      have : l' = l := by rcases hl with h | h <;> omega
      subst this
      rw [if_neg hk, if_neg hk]
      cases decodeHeader c.ver {} buf (c.off + 3) (l' + old) with
      | error f => exact .inr rfl
      | ok q =>
        obtain ⟨d, off⟩ := q
        simp only
        by_cases h3 : headerLen ≠ off - old
        · rw [if_pos h3, if_pos h3]; exact ⟨s', rfl⟩
        rw [if_neg h3, if_neg h3]
        cases d with
        | none => exact ⟨s', rfl⟩
        | some b =>
          simp only
          by_cases h4 : b.allocationStatus = TO_BE_DELETED ∧ (b.fileSize ≠ 0 ∨ b.dataSize ≠ 0)
          · rw [if_pos h4, if_pos h4]; exact ⟨s', rfl⟩
          rw [if_neg h4, if_neg h4]
          exact sProcessBlock_sim hS crc b _ _ old s' ⟨n₀, rfl⟩ hR' (by simp only; omega)

theorem processDone_net (c : RcvConn) (n₀ : RNet) (old : Int) (s : σ) :
    SameNext R (processDone c old) (withSock (processDone { c with net := n₀ } old) s) := by
  unfold processDone
  simp only
  by_cases h : c.numRead ≠ kMinBufLength
  · rw [if_pos h]; exact ⟨s, rfl⟩
  rw [if_neg h]
  cases loadByte c.buf c.off with
  | error f => exact .inr rfl
  | ok st =>
    simp only
    cases decodeDone c.ver c.buf (c.off + 1) (old + kMaxDone) with
    | error f => exact .inr rfl
    | ok q =>
      obtain ⟨q, o⟩ := q
      cases q with
      | none => exact ⟨s, rfl⟩
      | some q => exact ⟨s, rfl⟩

theorem processSize_net (c : RcvConn) (n₀ : RNet) (old : Int) (s : σ) (hR : R s c.net) :
    SameNext R (processSize c old) (withSock (processSize { c with net := n₀ } old) s) := by
  unfold processSize
  simp only
  cases decodeSize c.buf c.off (old + kMaxSize) with
  | error f => exact .inr rfl
  | ok q =>
    obtain ⟨q, o⟩ := q
    cases q with
    | none => exact ⟨s, rfl⟩
    | some q => exact ⟨s, _, rfl, ⟨n₀, rfl⟩, hR⟩

theorem processSettings_net (id : Bytes) (c : RcvConn) (n₀ : RNet) (old : Int) (s : σ) (hR : R s c.net) :
    SameNext R (processSettings id c old) (withSock (processSettings id { c with net := n₀ } old) s) := by
  unfold processSettings
  simp only
  cases decodeVersion c.buf c.off (old + kMaxVersion) with
  | error f => exact .inr rfl
  | ok q =>
    obtain ⟨q, o⟩ := q
    cases q with
    | none => exact ⟨s, rfl⟩
    | some v =>
      simp only
      generalize receiverOnSettings v c.ver = p
      obtain ⟨ver, p⟩ := p
      cases p with
      | incompatible => exact ⟨s, rfl⟩
      | versionMismatch _ => exact ⟨s, rfl⟩
      | accept =>
        simp only
        cases decodeSettings ver {} c.buf o (old + kMaxVersion + kMaxSettings) with
        | error f => exact .inr rfl
        | ok q =>
          obtain ⟨q, o2⟩ := q
          cases q with
          | none => exact ⟨s, rfl⟩
          | some st =>
            simp only
            by_cases h1 : st.transferId ≠ id
            · rw [if_pos h1, if_pos h1]; exact ⟨s, rfl⟩
            rw [if_neg h1, if_neg h1]
            by_cases h2 : st.sendFileChunks = true
            · rw [if_pos h2, if_pos h2]; exact ⟨s, rfl⟩
            rw [if_neg h2, if_neg h2]
            exact ⟨s, _, rfl, ⟨n₀, rfl⟩, hR⟩

theorem sReadNextCmd_sim (hS : SockSim K frag R) (crc : Int → UInt8 → Int) (id : Bytes)
    (c₀ c : RcvConn) (s : σ) (hc : SameConn c₀ c) (hR : R s c.net) :
    SameNext R (readNextCmd frag crc id c) (sReadNextCmd K crc id c₀ s) := by
  obtain ⟨n₀, rfl⟩ := hc
  unfold readNextCmd sReadNextCmd
  simp only
  have h := sReadAtLeast_sim hS c.off (c.buf.length - c.off) kMinBufLength c.buf c.numRead c.net s hR
  generalize readAtLeast frag c.off (c.buf.length - c.off) kMinBufLength c.buf c.numRead c.net = x at h ⊢
  generalize sReadAtLeast K c.off (c.buf.length - c.off) kMinBufLength c.buf c.numRead s = y at h ⊢
  match x, h with
  | .error f, .inl h => exact .inl h
  | .error f, .inr h => rw [h]; exact .inr rfl
  | .ok (buf, l, net), ⟨hn, l', s', h, hR', hl⟩ =>
    rw [h]
    simp only
    by_cases hk : l < kMinBufLength
    · rw [if_pos hk, if_pos (by rcases hl with h | h <;> omega)]
      exact ⟨s', rfl⟩
    have : l' = l := by rcases hl with h | h <;> omega
    subst this
    rw [if_neg hk, if_neg hk]
    cases loadByte buf c.off with
    | error f => exact .inr rfl
    | ok cmd =>
      simp only
      by_cases h1 : cmd = DONE_CMD
      · rw [if_pos h1, if_pos h1]
        exact processDone_net { c with buf := buf, numRead := l', net := net, off := c.off + 1 } n₀ c.off s'
      rw [if_neg h1, if_neg h1]
      by_cases h2 : cmd = FILE_CMD
      · rw [if_pos h2, if_pos h2]
        exact sProcessFile_sim hS crc _ _ c.off s' ⟨n₀, rfl⟩ hR'
      rw [if_neg h2, if_neg h2]
      by_cases h3 : cmd = SETTINGS_CMD
      · rw [if_pos h3, if_pos h3]
        exact processSettings_net id { c with buf := buf, numRead := l', net := net, off := c.off + 1 } n₀ c.off s' hR'
      rw [if_neg h3, if_neg h3]
      by_cases h4 : cmd = SIZE_CMD
      · rw [if_pos h4, if_pos h4]
        exact processSize_net { c with buf := buf, numRead := l', net := net, off := c.off + 1 } n₀ c.off s' hR'
      rw [if_neg h4, if_neg h4]
      exact ⟨s', rfl⟩

/-- What the receiver thread does with the stream, it does with the socket. -/
theorem sReceive_sim (hS : SockSim K frag R) (crc : Int → UInt8 → Int) (id : Bytes) :
    ∀ (fuel : Nat) (c₀ c : RcvConn) (s : σ), SameConn c₀ c → R s c.net →
      ∀ obs o, receive frag crc id fuel c = .ok (obs, o) → ∃ s', sReceive K crc id fuel c₀ s = .ok (obs, o, s') := by
  intro fuel
  induction fuel with
  | zero => intro c₀ c s _ _ obs o h; cases h
  | succ fuel ih =>
    intro c₀ c s hc hR obs o h
    rw [receive] at h
    rw [sReceive]
    have hn := sReadNextCmd_sim hS crc id c₀ c s hc hR
    generalize readNextCmd frag crc id c = x at h hn
    generalize sReadNextCmd K crc id c₀ s = y at hn ⊢
    match x, hn, h with
    | .ok (obs1, .stop o1), ⟨s', e⟩, h =>
      rw [e]; cases h; exact ⟨s', rfl⟩
    | .ok (obs1, .next c1), ⟨s', c₁, e, hc1, hR1⟩, h =>
      rw [e]
      simp only at h ⊢
      cases hr : receive frag crc id fuel c1 with
      | error f => rw [hr] at h; cases h
      | ok q =>
        obtain ⟨obs2, o2⟩ := q
        rw [hr] at h
        cases h
        obtain ⟨s'', e2⟩ := ih c₁ c1 s' hc1 hR1 obs2 o hr
        rw [e2]
        exact ⟨s'', rfl⟩

end

end Wdt
