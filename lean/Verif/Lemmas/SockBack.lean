import Verif.Lemmas.SockReceive
/-
Whatever a socket hands out, the receiver thread does what the bytes handed out make
it do: for each run on a socket there is a run on a plain stream, made of exactly
these bytes.
-/
namespace Wdt

section
variable {σ : Type}

/-- The socket after reads of the given sizes, latest first. -/
def sockState (K : Sock σ) (s₀ : σ) : List Int → σ
  | [] => s₀
  | n :: l => match K.read n (sockState K s₀ l) with
    | .ok (_, _, s) => s
    | .error _ => sockState K s₀ l

/-- How the socket cuts the bytes it hands out. -/
def sockCut (K : Sock σ) (s₀ : σ) : List Int → Nat
  | [] => 0
  | n :: l => match K.read n (sockState K s₀ l) with
    | .ok (_, d, _) => d.length - 1
    | .error _ => 0

/-- A socket whose return values count the bytes handed out. -/
structure SockOK (K : Sock σ) (Inv : σ → Prop) : Prop where
  read : ∀ s n ret d s', Inv s → 0 < n → K.read n s = .ok (ret, d, s') →
    Inv s' ∧ (ret ≤ 0 → d = []) ∧ (0 < ret → ret = d.length ∧ ret ≤ n)

/-- `Delivers K s d s'`: some reads hand out `d`. -/
inductive Delivers (K : Sock σ) (s : σ) : Bytes → σ → Prop
  | refl : Delivers K s [] s
  | read {d s₁ n ret d' s₂} : Delivers K s d s₁ → 0 < n → K.read n s₁ = .ok (ret, d', s₂) → Delivers K s (d ++ d') s₂

theorem Delivers.trans {K : Sock σ} {s s₁ s₂ : σ} {d d' : Bytes} (h : Delivers K s d s₁) (h' : Delivers K s₁ d' s₂) :
    Delivers K s (d ++ d') s₂ := by
  induction h' with
  | refl => simpa using h
  | read _ hn hr ih => rw [← List.append_assoc]; exact .read ih hn hr

theorem Delivers.one {K : Sock σ} {s s' : σ} {n ret : Int} {d : Bytes} (hn : 0 < n) (h : K.read n s = .ok (ret, d, s')) :
    Delivers K s d s' := by
  have := Delivers.read (.refl (K := K) (s := s)) hn h
  simpa using this

variable {K : Sock σ} {Inv : σ → Prop} {s₀ : σ}

theorem netRead_some (hK : SockOK K Inv) {s s' : σ} {net : RNet} {n ret : Int} {d tail : Bytes} (hi : Inv s)
    (ha : s = sockState K s₀ net.asked) (hn : 0 < n) (hr : K.read n s = .ok (ret, d, s')) (hp : 0 < ret)
    (ht : net.rest = d ++ tail) :
    ∃ net', netRead (sockCut K s₀) n net = (d, net') ∧ net'.rest = tail ∧ s' = sockState K s₀ net'.asked := by
  obtain ⟨_, _, h2⟩ := hK.read s n ret d s' hi hn hr
  obtain ⟨h3, h4⟩ := h2 hp
  have hcut : sockCut K s₀ (n :: net.asked) = d.length - 1 := by rw [sockCut, ← ha, hr]
  have hst : sockState K s₀ (n :: net.asked) = s' := by rw [sockState, ← ha, hr]
  have hm : min (d.length - 1 + 1) n.toNat = d.length := by omega
  refine ⟨{ rest := tail, k := net.k + 1, asked := n :: net.asked }, ?_, rfl, hst.symm⟩
  unfold netRead
  rw [hcut, hm, ht, List.take_left, List.drop_left]

theorem netRead_none {s s' : σ} {net : RNet} {n ret : Int} {d : Bytes}
    (ha : s = sockState K s₀ net.asked) (hr : K.read n s = .ok (ret, d, s')) (ht : net.rest = []) :
    ∃ net', netRead (sockCut K s₀) n net = ([], net') ∧ net'.rest = [] ∧ s' = sockState K s₀ net'.asked := by
  have hst : sockState K s₀ (n :: net.asked) = s' := by rw [sockState, ← ha, hr]
  refine ⟨{ rest := [], k := net.k + 1, asked := n :: net.asked }, ?_, rfl, hst.symm⟩
  unfold netRead
  rw [ht, List.take_nil, List.drop_nil]

theorem sReadAtLeastLoop_back (hK : SockOK K Inv) (base max atLeast : Int) (hm : atLeast ≤ max) (hp : 0 < atLeast) :
    ∀ (fuel' : Nat) (buf : Bytes) (len : Int) (s : σ) (buf' : Bytes) (l' : Int) (s' : σ), Inv s →
      sReadAtLeastLoop K base max atLeast fuel' buf len s = .ok (buf', l', s') →
      Inv s' ∧ buf'.length = buf.length ∧ ∃ d, Delivers K s d s' ∧
        ∀ (fuel : Nat) (net : RNet) (tail : Bytes), s = sockState K s₀ net.asked → net.rest = d ++ tail → d.length < fuel →
          (l' < atLeast → tail = []) →
          ∃ l net', readAtLeastLoop (sockCut K s₀) base max atLeast fuel buf len net = .ok (buf', l, net') ∧
            s' = sockState K s₀ net'.asked ∧ net'.rest = tail ∧ (l = l' ∨ (l < atLeast ∧ l' < atLeast)) := by
  intro fuel'
  induction fuel' with
  | zero => intro buf len s buf' l' s' _ h; cases h
  | succ fuel' ih =>
    intro buf len s buf' l' s' hi h
    rw [sReadAtLeastLoop] at h
    by_cases hlt : len < atLeast
    · rw [if_pos hlt] at h
      cases hr : K.read (max - len) s with
      | error f => rw [hr] at h; cases h
      | ok q =>
        obtain ⟨ret, bs, s1⟩ := q
        rw [hr] at h
        simp only at h
        obtain ⟨hi1, h0, h1⟩ := hK.read s _ ret bs s1 hi (by omega) hr
        by_cases hpos : 0 < ret
        · rw [if_neg (by omega), if_neg (by omega)] at h
          obtain ⟨hret, _⟩ := h1 hpos
          cases hst : storeBytes buf (base + len) bs with
          | error f => rw [hst] at h; cases h
          | ok buf1 =>
            rw [hst] at h
            simp only at h
            obtain ⟨hi', hl, d, hd, hrun⟩ := ih buf1 (len + ret) s1 buf' l' s' hi1 h
            refine ⟨hi', by rw [hl, storeBytes_len hst], bs ++ d, (Delivers.one (by omega) hr).trans hd, ?_⟩
            intro fuel net tail ha ht hf hend
            obtain ⟨fuel, rfl⟩ : ∃ k, fuel = k + 1 := ⟨fuel - 1, by omega⟩
            rw [List.length_append] at hf
            obtain ⟨net1, e1, hrest1, ha1⟩ := netRead_some (s₀ := s₀) hK hi ha (by omega) hr hpos (ht.trans (List.append_assoc _ _ _))
            obtain ⟨l, net', e2, ha2, ht2, hl2⟩ := hrun fuel net1 tail ha1 hrest1 (by omega) hend
            refine ⟨l, net', ?_, ha2, ht2, hl2⟩
            have hne : bs ≠ [] := by intro hc; rw [hc] at hret; simp at hret; omega
            rw [readAtLeastLoop, if_pos hlt, e1]
            simp only [if_neg hne, hst, ← hret]
            exact e2
        · have hbs := h0 (by omega)
          subst hbs
          have hl' : buf' = buf ∧ s' = s1 ∧ (l' = len ∨ l' < atLeast) ∧ l' < atLeast := by
            by_cases hneg : ret < 0
            · rw [if_pos hneg] at h
              cases h
              by_cases hz : len = 0
              · rw [if_pos hz]; exact ⟨rfl, rfl, by omega, by omega⟩
              · rw [if_neg hz]; exact ⟨rfl, rfl, by omega, by omega⟩
            · rw [if_neg hneg, if_pos (by omega)] at h
              cases h
              exact ⟨rfl, rfl, by omega, by omega⟩
          obtain ⟨rfl, rfl, hl1, hl2⟩ := hl'
          refine ⟨hi1, rfl, [], by simpa using Delivers.one (by omega) hr, ?_⟩
          intro fuel net tail ha ht hf hend
          obtain ⟨fuel, rfl⟩ : ∃ k, fuel = k + 1 := ⟨fuel - 1, by simp at hf; omega⟩
          have htail := hend hl2
          subst htail
          obtain ⟨net1, e1, hrest1, ha1⟩ := netRead_none (s₀ := s₀) ha hr (by simpa using ht)
          refine ⟨len, net1, ?_, ha1, hrest1, .inr ⟨hlt, hl2⟩⟩
          rw [readAtLeastLoop, if_pos hlt, e1]
          simp
    · rw [if_neg hlt] at h
      cases h
      refine ⟨hi, rfl, [], .refl, ?_⟩
      intro fuel net tail ha ht hf _
      obtain ⟨fuel, rfl⟩ : ∃ k, fuel = k + 1 := ⟨fuel - 1, by simp at hf; omega⟩
      refine ⟨len, net, ?_, ha, by simpa using ht, .inl rfl⟩
      rw [readAtLeastLoop, if_neg hlt]

theorem sReadAtLeast_back (hK : SockOK K Inv) {base max atLeast : Int} {buf : Bytes} {len : Int} {s : σ} {buf' : Bytes}
    {l' : Int} {s' : σ} (hi : Inv s) (h : sReadAtLeast K base max atLeast buf len s = .ok (buf', l', s')) :
    Inv s' ∧ buf'.length = buf.length ∧ ∃ d, Delivers K s d s' ∧
      ∀ (net : RNet) (tail : Bytes), s = sockState K s₀ net.asked → net.rest = d ++ tail →
        (l' < atLeast → tail = []) →
        ∃ l net', readAtLeast (sockCut K s₀) base max atLeast buf len net = .ok (buf', l, net') ∧
          s' = sockState K s₀ net'.asked ∧ net'.rest = tail ∧ (l = l' ∨ (l < atLeast ∧ l' < atLeast)) := by
  unfold sReadAtLeast at h
  by_cases h1 : len < 0
  · rw [if_pos h1] at h; cases h
  rw [if_neg h1] at h
  by_cases h2 : atLeast ≤ 0
  · rw [if_pos h2] at h; cases h
  rw [if_neg h2] at h
  by_cases h3 : atLeast > max
  · rw [if_pos h3] at h; cases h
  rw [if_neg h3] at h
  obtain ⟨hi', hl, d, hd, hrun⟩ := sReadAtLeastLoop_back (s₀ := s₀) hK base max atLeast (by omega) (by omega) _ _ _ _ _ _ _ hi h
  refine ⟨hi', hl, d, hd, ?_⟩
  intro net tail ha ht hend
  unfold readAtLeast
  rw [if_neg h1, if_neg h2, if_neg h3]
  exact hrun _ net tail ha ht (by rw [ht, List.length_append]; omega) hend

theorem loadBytes_len {mem : Bytes} : ∀ {n : Nat} {p : Int} {bs : Bytes}, loadBytes mem p n = .ok bs → bs.length = n := by
  intro n
  induction n with
  | zero => intro p bs h; cases h; rfl
  | succ n ih =>
    intro p bs h
    rw [loadBytes] at h
    cases h1 : loadByte mem p with
    | error f => rw [h1] at h; cases h
    | ok b =>
      rw [h1] at h
      simp only at h
      cases h2 : loadBytes mem (p + 1) n with
      | error f => rw [h2] at h; cases h
      | ok l =>
        rw [h2] at h
        simp only at h
        cases h
        rw [List.length_cons, ih h2]

theorem sReadBlockLoop_back (hK : SockOK K Inv) :
    ∀ (fuel' : Nat) (buf : Bytes) (missing : Int) (s : σ) (buf' data : Bytes) (s' : σ), Inv s → 0 < buf.length → 0 ≤ missing →
      sReadBlockLoop K fuel' buf missing s = .ok (buf', data, s') →
      Inv s' ∧ buf'.length = buf.length ∧ (data.length : Int) ≤ missing ∧ Delivers K s data s' ∧
        ∀ (fuel : Nat) (net : RNet) (tail : Bytes), s = sockState K s₀ net.asked → net.rest = data ++ tail →
          data.length < fuel → ((data.length : Int) < missing → tail = []) →
          ∃ net', readBlockLoop (sockCut K s₀) fuel buf missing net = .ok (buf', data, net') ∧
            s' = sockState K s₀ net'.asked ∧ net'.rest = tail := by
  intro fuel'
  induction fuel' with
  | zero => intro buf missing s buf' data s' _ _ _ h; cases h
  | succ fuel' ih =>
    intro buf missing s buf' data s' hi hb hm h
    rw [sReadBlockLoop] at h
    by_cases hlt : missing > 0
    · rw [if_pos hlt] at h
      have hn : 0 < min missing (buf.length : Int) := by omega
      cases hr : K.read (min missing buf.length) s with
      | error f => rw [hr] at h; cases h
      | ok q =>
        obtain ⟨ret, bs, s1⟩ := q
        rw [hr] at h
        simp only at h
        obtain ⟨hi1, h0, h1⟩ := hK.read s _ ret bs s1 hi hn hr
        by_cases hpos : 0 < ret
        · rw [if_neg (by omega)] at h
          obtain ⟨hret, hretn⟩ := h1 hpos
          cases hst : storeBytes buf 0 bs with
          | error f => rw [hst] at h; cases h
          | ok buf1 =>
            rw [hst] at h
            simp only at h
            have hbl := storeBytes_len hst
            cases hrec : sReadBlockLoop K fuel' buf1 (missing - ret) s1 with
            | error f => rw [hrec] at h; cases h
            | ok q =>
              obtain ⟨b2, d2, s2⟩ := q
              rw [hrec] at h
              simp only at h
              cases h
              obtain ⟨hi', hl, hdl, hd, hrun⟩ := ih buf1 (missing - ret) s1 buf' d2 s' hi1 (by omega) (by omega) hrec
              refine ⟨hi', by omega, by rw [List.length_append]; omega, (Delivers.one hn hr).trans hd, ?_⟩
              intro fuel net tail ha ht hf hend
              obtain ⟨fuel, rfl⟩ : ∃ k, fuel = k + 1 := ⟨fuel - 1, by omega⟩
              rw [List.length_append] at hf hend
              obtain ⟨net1, e1, hrest1, ha1⟩ := netRead_some (s₀ := s₀) hK hi ha hn hr hpos (ht.trans (List.append_assoc _ _ _))
              obtain ⟨net', e2, ha2, ht2⟩ := hrun fuel net1 tail ha1 hrest1 (by omega) (fun hc => hend (by omega))
              refine ⟨net', ?_, ha2, ht2⟩
              have hne : bs ≠ [] := by intro hc; rw [hc] at hret; simp at hret; omega
              rw [readBlockLoop, if_pos hlt, e1]
              simp only [if_neg hne, hst, ← hret]
              rw [e2]
        · rw [if_pos (by omega)] at h
          have hbs := h0 (by omega)
          subst hbs
          cases h
          refine ⟨hi1, rfl, by simp; omega, by simpa using Delivers.one hn hr, ?_⟩
          intro fuel net tail ha ht hf hend
          obtain ⟨fuel, rfl⟩ : ∃ k, fuel = k + 1 := ⟨fuel - 1, by simp at hf; omega⟩
          have htail := hend (by simpa using hlt)
          subst htail
          obtain ⟨net1, e1, hrest1, ha1⟩ := netRead_none (s₀ := s₀) ha hr (by simpa using ht)
          refine ⟨net1, ?_, ha1, hrest1⟩
          rw [readBlockLoop, if_pos hlt, e1]
          simp
    · rw [if_neg hlt] at h
      cases h
      refine ⟨hi, rfl, by simpa using hm, .refl, ?_⟩
      intro fuel net tail ha ht hf _
      obtain ⟨fuel, rfl⟩ : ∃ k, fuel = k + 1 := ⟨fuel - 1, by simp at hf; omega⟩
      refine ⟨net, ?_, ha, by simpa using ht⟩
      rw [readBlockLoop, if_neg hlt]

/-- What a handler did on the socket, `F` does on the bytes that were handed out. -/
def Back (K : Sock σ) (Inv : σ → Prop) (s₀ : σ) (F : RNet → Except Fault (List RObs × RNext)) (s : σ) (obs : List RObs) :
    RNext → σ → Prop
  | .stop o, s' => ∃ d, Delivers K s d s' ∧ Inv s' ∧
      ∀ net, s = sockState K s₀ net.asked → net.rest = d → F net = .ok (obs, .stop o)
  | .next c₀, s' => ∃ d, Delivers K s d s' ∧ Inv s' ∧
      ∀ net tail, s = sockState K s₀ net.asked → net.rest = d ++ tail →
        ∃ net', F net = .ok (obs, .next { c₀ with net := net' }) ∧ s' = sockState K s₀ net'.asked ∧ net'.rest = tail

theorem sProcessFooter_back (hK : SockOK K Inv) (crc : Int → UInt8 → Int) (b : BlockDetails) (data : Bytes)
    (c : RcvConn) (s : σ) (hi : Inv s) (obs : List RObs) (r : RNext) (s' : σ)
    (h : sProcessFooter K crc b data c s = .ok (obs, r, s')) :
    Back K Inv s₀ (fun net => processFooter (sockCut K s₀) crc b data { c with net := net }) s obs r s' := by
  unfold sProcessFooter at h
  cases hr : sReadAtLeast K c.off (c.buf.length - c.off) kMinBufLength c.buf c.numRead s with
  | error f => rw [hr] at h; cases h
  | ok q =>
    obtain ⟨buf, l', s1⟩ := q
    rw [hr] at h
    simp only at h
    obtain ⟨hi1, hbl, d, hd, hrun⟩ := sReadAtLeast_back (s₀ := s₀) hK hi hr
    by_cases hk : l' < kMinBufLength
    · rw [if_pos hk] at h
      cases h
      refine ⟨d, hd, hi1, ?_⟩
      intro net ha ht
      obtain ⟨l, net', e, _, _, hl⟩ := hrun net [] ha (by simpa using ht) (fun _ => rfl)
      unfold processFooter
      simp only [e]
      rw [if_pos (by rcases hl with h | h <;> omega)]
    · rw [if_neg hk] at h
      have plain : ∀ (net : RNet) (tail : Bytes), s = sockState K s₀ net.asked → net.rest = d ++ tail →
          ∃ net', readAtLeast (sockCut K s₀) c.off (c.buf.length - c.off) kMinBufLength c.buf c.numRead net = .ok (buf, l', net')
            ∧ s1 = sockState K s₀ net'.asked ∧ net'.rest = tail := by
        intro net tail ha ht
        obtain ⟨l, net', e, h2, h3, hl⟩ := hrun net tail ha ht (fun hc => absurd hc hk)
        have : l = l' := by rcases hl with h | h <;> omega
        subst this
        exact ⟨net', e, h2, h3⟩
      cases hlb : loadByte buf c.off with
      | error f => rw [hlb] at h; cases h
      | ok cmd =>
        rw [hlb] at h
        simp only at h
        by_cases hc : cmd ≠ FOOTER_CMD
        · rw [if_pos hc] at h
          cases h
          refine ⟨d, hd, hi1, fun net ha ht => ?_⟩
          obtain ⟨net', e, _⟩ := plain net [] ha (by simpa using ht)
          unfold processFooter
          simp only [e, if_neg hk, hlb, if_pos hc]
        · rw [if_neg hc] at h
          cases hdf : decodeFooter buf (c.off + 1) (c.off + kMaxFooter) with
          | error f => rw [hdf] at h; cases h
          | ok q =>
            obtain ⟨q, off⟩ := q
            rw [hdf] at h
            cases q with
            | none =>
              simp only at h
              cases h
              refine ⟨d, hd, hi1, fun net ha ht => ?_⟩
              obtain ⟨net', e, _⟩ := plain net [] ha (by simpa using ht)
              unfold processFooter
              simp only [e, if_neg hk, hlb, if_neg hc, hdf]
            | some sum =>
              simp only at h
              by_cases hs : data.foldl crc 0 ≠ sum
              · rw [if_pos hs] at h
                cases h
                refine ⟨d, hd, hi1, fun net ha ht => ?_⟩
                obtain ⟨net', e, _⟩ := plain net [] ha (by simpa using ht)
                unfold processFooter
                simp only [e, if_neg hk, hlb, if_neg hc, hdf, if_pos hs]
              · rw [if_neg hs] at h
                cases h
                refine ⟨d, hd, hi1, fun net tail ha ht => ?_⟩
                obtain ⟨net', e, h2, h3⟩ := plain net tail ha ht
                refine ⟨net', ?_, h2, h3⟩
                unfold processFooter
                simp only [e, if_neg hk, hlb, if_neg hc, hdf, if_neg hs]

theorem sProcessBlock_back (hK : SockOK K Inv) (crc : Int → UInt8 → Int) (b : BlockDetails)
    (c : RcvConn) (old : Int) (s : σ) (hi : Inv s) (hb : 0 < c.buf.length) (obs : List RObs) (r : RNext) (s' : σ)
    (h : sProcessBlock K crc b c old s = .ok (obs, r, s')) :
    Back K Inv s₀ (fun net => processBlock (sockCut K s₀) crc b { c with net := net } old) s obs r s' := by
  unfold sProcessBlock at h
  by_cases h1 : c.numRead + old - c.off < 0
  · rw [if_pos h1] at h; cases h
  rw [if_neg h1] at h
  cases hlb : loadBytes c.buf c.off (min (c.numRead + old - c.off) b.dataSize).toNat with
  | error f => rw [hlb] at h; cases h
  | ok first =>
    rw [hlb] at h
    simp only at h
    have hfl : (first.length : Int) = (min (c.numRead + old - c.off) b.dataSize).toNat := by
      rw [loadBytes_len hlb]
    cases hr : sReadBlockLoop K (K.left s + 1) c.buf (b.dataSize - min (c.numRead + old - c.off) b.dataSize) s with
    | error f => rw [hr] at h; cases h
    | ok q =>
      obtain ⟨buf, more, s1⟩ := q
      rw [hr] at h
      simp only at h
      obtain ⟨hi1, hbl, hml, hd, hrun⟩ := sReadBlockLoop_back (s₀ := s₀) hK _ _ _ _ _ _ _ hi hb (by omega) hr
      by_cases h2 : ((first ++ more).length : Int) ≠ b.dataSize
      · rw [if_pos h2] at h
        cases h
        refine ⟨more, hd, hi1, fun net ha ht => ?_⟩
        obtain ⟨net', e, _, _⟩ := hrun (net.rest.length + 1) net [] ha (by simpa using ht) (by rw [ht]; omega) (fun _ => rfl)
        unfold processBlock
        simp only [if_neg h1, hlb, e, if_pos h2]
      rw [if_neg h2] at h
      have h2' : ((first ++ more).length : Int) = b.dataSize := by
        by_cases hc : ((first ++ more).length : Int) = b.dataSize
        · exact hc
        · exact absurd hc h2
      rw [List.length_append] at h2'
      cases hkl : keepLeftover { c with buf := buf, off := c.off + first.length } (c.numRead + old - c.off - first.length) with
      | error f => rw [hkl] at h; cases h
      | ok c' =>
        rw [hkl] at h
        simp only at h
        have plain : ∀ (net : RNet) (tail : Bytes), s = sockState K s₀ net.asked → net.rest = more ++ tail →
            ∃ net', readBlockLoop (sockCut K s₀) (net.rest.length + 1) c.buf
                (b.dataSize - min (c.numRead + old - c.off) b.dataSize) net = .ok (buf, more, net')
              ∧ keepLeftover { c with buf := buf, net := net', off := c.off + first.length } (c.numRead + old - c.off - first.length)
                = .ok { c' with net := net' }
              ∧ s1 = sockState K s₀ net'.asked ∧ net'.rest = tail := by
          intro net tail ha ht
          obtain ⟨net', e, h3, h4⟩ := hrun (net.rest.length + 1) net tail ha ht (by rw [ht, List.length_append]; omega)
            (fun hc => by omega)
          refine ⟨net', e, ?_, h3, h4⟩
          have := (keepLeftover_net { c with buf := buf, off := c.off + first.length } net'
            (c.numRead + old - c.off - first.length)).1
          rw [hkl] at this
          exact this
        by_cases hf : c'.footer = true
        · rw [if_pos hf] at h
          cases hpf : sProcessFooter K crc b (first ++ more) c' s1 with
          | error f => rw [hpf] at h; cases h
          | ok q =>
            obtain ⟨obs2, r2, s2⟩ := q
            rw [hpf] at h
            simp only at h
            cases h
            have hb2 := sProcessFooter_back (s₀ := s₀) hK crc b (first ++ more) c' s1 hi1 obs2 r s' hpf
            cases r with
            | stop o =>
              obtain ⟨d2, hd2, hi2, hrun2⟩ := hb2
              refine ⟨more ++ d2, hd.trans hd2, hi2, fun net ha ht => ?_⟩
              obtain ⟨net', e1, e2, h3, h4⟩ := plain net d2 ha ht
              have := hrun2 net' h3 h4
              simp only at this
              unfold processBlock
              simp only [if_neg h1, hlb, e1, if_neg h2, e2, if_pos hf, this]
            | next c2 =>
              obtain ⟨d2, hd2, hi2, hrun2⟩ := hb2
              refine ⟨more ++ d2, hd.trans hd2, hi2, fun net tail ha ht => ?_⟩
              obtain ⟨net', e1, e2, h3, h4⟩ := plain net (d2 ++ tail) ha (by rw [ht, List.append_assoc])
              obtain ⟨net2, e3, h5, h6⟩ := hrun2 net' tail h3 h4
              refine ⟨net2, ?_, h5, h6⟩
              simp only at e3
              unfold processBlock
              simp only [if_neg h1, hlb, e1, if_neg h2, e2, if_pos hf, e3]
        · rw [if_neg hf] at h
          cases h
          refine ⟨more, hd, hi1, fun net tail ha ht => ?_⟩
          obtain ⟨net', e1, e2, h3, h4⟩ := plain net tail ha ht
          refine ⟨net', ?_, h3, h4⟩
          unfold processBlock
          simp only [if_neg h1, hlb, e1, if_neg h2, e2, if_neg hf]

theorem sProcessFile_back (hK : SockOK K Inv) (crc : Int → UInt8 → Int) (c : RcvConn) (old : Int) (s : σ) (hi : Inv s)
    (obs : List RObs) (r : RNext) (s' : σ) (h : sProcessFile K crc c old s = .ok (obs, r, s')) :
    Back K Inv s₀ (fun net => processFile (sockCut K s₀) crc { c with net := net } old) s obs r s' := by
  unfold sProcessFile at h
  cases hh : loadInt16 c.buf (c.off + 1) with
  | error f => rw [hh] at h; cases h
  | ok headerLen =>
    have hb := loadInt16_pos hh
    rw [hh] at h
    simp only at h
    by_cases h1 : headerLen ≤ 0
    · rw [if_pos h1] at h
      cases h
      refine ⟨[], .refl, hi, fun net ha ht => ?_⟩
      unfold processFile
      simp only [hh, if_pos h1]
    rw [if_neg h1] at h
    cases hr : (if headerLen > c.numRead then
          sReadAtLeast K (old + c.numRead) (c.buf.length - (old + c.numRead)) headerLen c.buf c.numRead s
        else .ok (c.buf, c.numRead, s)) with
    | error f => rw [hr] at h; cases h
    | ok q =>
      obtain ⟨buf, l', s1⟩ := q
      rw [hr] at h
      simp only at h
      have hread : Inv s1 ∧ buf.length = c.buf.length ∧ ∃ d, Delivers K s d s1 ∧
          ∀ (net : RNet) (tail : Bytes), s = sockState K s₀ net.asked → net.rest = d ++ tail →
            (l' < headerLen → tail = []) →
            ∃ l net', (if headerLen > c.numRead then
                readAtLeast (sockCut K s₀) (old + c.numRead) (c.buf.length - (old + c.numRead)) headerLen c.buf c.numRead net
              else .ok (c.buf, c.numRead, net)) = .ok (buf, l, net') ∧
              s1 = sockState K s₀ net'.asked ∧ net'.rest = tail ∧ (l = l' ∨ (l < headerLen ∧ l' < headerLen)) := by
        by_cases h2 : headerLen > c.numRead
        · rw [if_pos h2] at hr
          have := sReadAtLeast_back (s₀ := s₀) hK hi hr
          simp only [if_pos h2]
          exact this
        · rw [if_neg h2] at hr
          cases hr
          refine ⟨hi, rfl, [], .refl, fun net tail ha ht _ => ⟨c.numRead, net, ?_, ha, by simpa using ht, .inl rfl⟩⟩
          rw [if_neg h2]
      obtain ⟨hi1, hbl, d, hd, hrun⟩ := hread
      by_cases hk : l' < headerLen
      · rw [if_pos hk] at h
        cases h
        refine ⟨d, hd, hi1, fun net ha ht => ?_⟩
        obtain ⟨l, net', e, _, _, hl⟩ := hrun net [] ha (by simpa using ht) (fun _ => rfl)
        unfold processFile
        simp only [hh, if_neg h1, e]
        rw [if_pos (by rcases hl with h | h <;> omega)]
      rw [if_neg hk] at h
      have plain : ∀ (net : RNet) (tail : Bytes), s = sockState K s₀ net.asked → net.rest = d ++ tail →
          ∃ net', (if headerLen > c.numRead then
                readAtLeast (sockCut K s₀) (old + c.numRead) (c.buf.length - (old + c.numRead)) headerLen c.buf c.numRead net
              else .ok (c.buf, c.numRead, net)) = .ok (buf, l', net')
            ∧ s1 = sockState K s₀ net'.asked ∧ net'.rest = tail := by
        intro net tail ha ht
        obtain ⟨l, net', e, h2, h3, hl⟩ := hrun net tail ha ht (fun hc => absurd hc hk)
        have : l = l' := by rcases hl with h | h <;> omega
        subst this
        exact ⟨net', e, h2, h3⟩
      cases hdh : decodeHeader c.ver {} buf (c.off + 3) (l' + old) with
      | error f => rw [hdh] at h; cases h
      | ok q =>
        obtain ⟨dd, off⟩ := q
        rw [hdh] at h
        simp only at h
        by_cases h3 : headerLen ≠ off - old
        · rw [if_pos h3] at h
          cases h
          refine ⟨d, hd, hi1, fun net ha ht => ?_⟩
          obtain ⟨net', e, _⟩ := plain net [] ha (by simpa using ht)
          unfold processFile
          simp only [hh, if_neg h1, e, if_neg hk, hdh, if_pos h3]
        rw [if_neg h3] at h
        cases dd with
        | none =>
          simp only at h
          cases h
          refine ⟨d, hd, hi1, fun net ha ht => ?_⟩
          obtain ⟨net', e, _⟩ := plain net [] ha (by simpa using ht)
          unfold processFile
          simp only [hh, if_neg h1, e, if_neg hk, hdh, if_neg h3]
        | some b =>
          simp only at h
          by_cases h4 : b.allocationStatus = TO_BE_DELETED ∧ (b.fileSize ≠ 0 ∨ b.dataSize ≠ 0)
          · rw [if_pos h4] at h
            cases h
            refine ⟨d, hd, hi1, fun net ha ht => ?_⟩
            obtain ⟨net', e, _⟩ := plain net [] ha (by simpa using ht)
            unfold processFile
            simp only [hh, if_neg h1, e, if_neg hk, hdh, if_neg h3, if_pos h4]
          rw [if_neg h4] at h
          have hb2 := sProcessBlock_back (s₀ := s₀) hK crc b { c with buf := buf, numRead := l', off := off } old s1 hi1
            (by simp only; omega) obs r s' h
          cases r with
          | stop o =>
            obtain ⟨d2, hd2, hi2, hrun2⟩ := hb2
            refine ⟨d ++ d2, hd.trans hd2, hi2, fun net ha ht => ?_⟩
            obtain ⟨net', e1, h5, h6⟩ := plain net d2 ha ht
            have := hrun2 net' h5 h6
            simp only at this
            unfold processFile
            simp only [hh, if_neg h1, e1, if_neg hk, hdh, if_neg h3, if_neg h4, this]
          | next c2 =>
            obtain ⟨d2, hd2, hi2, hrun2⟩ := hb2
            refine ⟨d ++ d2, hd.trans hd2, hi2, fun net tail ha ht => ?_⟩
            obtain ⟨net', e1, h5, h6⟩ := plain net (d2 ++ tail) ha (by rw [ht, List.append_assoc])
            obtain ⟨net2, e3, h7, h8⟩ := hrun2 net' tail h5 h6
            refine ⟨net2, ?_, h7, h8⟩
            simp only at e3
            unfold processFile
            simp only [hh, if_neg h1, e1, if_neg hk, hdh, if_neg h3, if_neg h4, e3]

/-- A handler that does not read does not look at the connection. -/
def Blind (F : RNet → Except Fault (List RObs × RNext)) : Prop :=
  ∀ n₀ obs r, F n₀ = .ok (obs, r) → match r with
    | .stop o => ∀ n, F n = .ok (obs, .stop o)
    | .next c => ∀ n, F n = .ok (obs, .next { c with net := n })

theorem blind_done (c : RcvConn) (old : Int) : Blind (fun net => processDone { c with net := net } old) := by
  intro n₀ obs r h
  unfold processDone at h ⊢
  simp only at h ⊢
  by_cases h1 : c.numRead ≠ kMinBufLength
  · rw [if_pos h1] at h ⊢; cases h; exact fun _ => rfl
  rw [if_neg h1] at h ⊢
  cases hb : loadByte c.buf c.off with
  | error f => rw [hb] at h; cases h
  | ok st =>
    rw [hb] at h
    simp only at h ⊢
    cases hd : decodeDone c.ver c.buf (c.off + 1) (old + kMaxDone) with
    | error f => rw [hd] at h; cases h
    | ok q =>
      obtain ⟨q, o⟩ := q
      rw [hd] at h
      cases q with
      | none => simp only at h ⊢; cases h; exact fun _ => rfl
      | some q => simp only at h ⊢; cases h; exact fun _ => rfl

theorem blind_size (c : RcvConn) (old : Int) : Blind (fun net => processSize { c with net := net } old) := by
  intro n₀ obs r h
  unfold processSize at h ⊢
  simp only at h ⊢
  cases hd : decodeSize c.buf c.off (old + kMaxSize) with
  | error f => rw [hd] at h; cases h
  | ok q =>
    obtain ⟨q, o⟩ := q
    rw [hd] at h
    cases q with
    | none => simp only at h ⊢; cases h; exact fun _ => rfl
    | some q => simp only at h ⊢; cases h; exact fun _ => rfl

theorem blind_settings (id : Bytes) (c : RcvConn) (old : Int) : Blind (fun net => processSettings id { c with net := net } old) := by
  intro n₀ obs r h
  unfold processSettings at h ⊢
  simp only at h ⊢
  cases hv : decodeVersion c.buf c.off (old + kMaxVersion) with
  | error f => rw [hv] at h; cases h
  | ok q =>
    obtain ⟨q, o⟩ := q
    rw [hv] at h
    cases q with
    | none => simp only at h ⊢; cases h; exact fun _ => rfl
    | some v =>
      simp only at h ⊢
      generalize receiverOnSettings v c.ver = p at h ⊢
      obtain ⟨ver, p⟩ := p
      cases p with
      | incompatible => simp only at h ⊢; cases h; exact fun _ => rfl
      | versionMismatch _ => simp only at h ⊢; cases h; exact fun _ => rfl
      | accept =>
        simp only at h ⊢
        cases hs : decodeSettings ver {} c.buf o (old + kMaxVersion + kMaxSettings) with
        | error f => rw [hs] at h; cases h
        | ok q =>
          obtain ⟨q, o2⟩ := q
          rw [hs] at h
          cases q with
          | none => simp only at h ⊢; cases h; exact fun _ => rfl
          | some st =>
            simp only at h ⊢
            by_cases h1 : st.transferId ≠ id
            · simp only [if_pos h1] at h ⊢; cases h; exact fun _ => rfl
            simp only [if_neg h1] at h ⊢
            by_cases h2 : st.sendFileChunks = true
            · simp only [if_pos h2] at h ⊢; cases h; exact fun _ => rfl
            simp only [if_neg h2] at h ⊢
            cases h; exact fun _ => rfl

theorem sReadNextCmd_back (hK : SockOK K Inv) (crc : Int → UInt8 → Int) (id : Bytes) (c : RcvConn) (s : σ) (hi : Inv s)
    (obs : List RObs) (r : RNext) (s' : σ) (h : sReadNextCmd K crc id c s = .ok (obs, r, s')) :
    Back K Inv s₀ (fun net => readNextCmd (sockCut K s₀) crc id { c with net := net }) s obs r s' := by
  unfold sReadNextCmd at h
  cases hr : sReadAtLeast K c.off (c.buf.length - c.off) kMinBufLength c.buf c.numRead s with
  | error f => rw [hr] at h; cases h
  | ok q =>
    obtain ⟨buf, l', s1⟩ := q
    rw [hr] at h
    simp only at h
    obtain ⟨hi1, hbl, d, hd, hrun⟩ := sReadAtLeast_back (s₀ := s₀) hK hi hr
    by_cases hk : l' < kMinBufLength
    · rw [if_pos hk] at h
      cases h
      refine ⟨d, hd, hi1, ?_⟩
      intro net ha ht
      obtain ⟨l, net', e, _, _, hl⟩ := hrun net [] ha (by simpa using ht) (fun _ => rfl)
      unfold readNextCmd
      simp only [e]
      rw [if_pos (by rcases hl with h | h <;> omega)]
    rw [if_neg hk] at h
    have plain : ∀ (net : RNet) (tail : Bytes), s = sockState K s₀ net.asked → net.rest = d ++ tail →
        ∃ net', readAtLeast (sockCut K s₀) c.off (c.buf.length - c.off) kMinBufLength c.buf c.numRead net = .ok (buf, l', net')
          ∧ s1 = sockState K s₀ net'.asked ∧ net'.rest = tail := by
      intro net tail ha ht
      obtain ⟨l, net', e, h2, h3, hl⟩ := hrun net tail ha ht (fun hc => absurd hc hk)
      have : l = l' := by rcases hl with h | h <;> omega
      subst this
      exact ⟨net', e, h2, h3⟩
    cases hlb : loadByte buf c.off with
    | error f => rw [hlb] at h; cases h
    | ok cmd =>
      rw [hlb] at h
      simp only at h
      -- a handler that does not read
      have blind : ∀ (G : RNet → Except Fault (List RObs × RNext)), Blind G →
          (∀ net net', readAtLeast (sockCut K s₀) c.off (c.buf.length - c.off) kMinBufLength c.buf c.numRead net = .ok (buf, l', net') →
            readNextCmd (sockCut K s₀) crc id { c with net := net } = G net') →
          (∃ n₀, withSock (G n₀) s1 = .ok (obs, r, s')) →
          Back K Inv s₀ (fun net => readNextCmd (sockCut K s₀) crc id { c with net := net }) s obs r s' := by
        intro G hG hstep ⟨n₀, hw⟩
        unfold withSock at hw
        cases hg : G n₀ with
        | error f => rw [hg] at hw; cases hw
        | ok q =>
          obtain ⟨o1, r1⟩ := q
          rw [hg] at hw
          simp only at hw
          cases hw
          have hbl2 := hG n₀ obs r hg
          cases r with
          | stop o =>
            refine ⟨d, hd, hi1, fun net ha ht => ?_⟩
            obtain ⟨net', e, _⟩ := plain net [] ha (by simpa using ht)
            simp only
            rw [hstep net net' e]
            exact hbl2 net'
          | next c2 =>
            refine ⟨d, hd, hi1, fun net tail ha ht => ?_⟩
            obtain ⟨net', e, h5, h6⟩ := plain net tail ha ht
            refine ⟨net', ?_, h5, h6⟩
            simp only
            rw [hstep net net' e]
            exact hbl2 net'
      by_cases h1 : cmd = DONE_CMD
      · rw [if_pos h1] at h
        refine blind _ (blind_done { c with buf := buf, numRead := l', off := c.off + 1 } c.off) ?_ ⟨c.net, h⟩
        intro net net' e
        unfold readNextCmd
        simp only [e, if_neg hk, hlb, if_pos h1]
      rw [if_neg h1] at h
      by_cases h2 : cmd = FILE_CMD
      · rw [if_pos h2] at h
        have hb2 := sProcessFile_back (s₀ := s₀) hK crc { c with buf := buf, numRead := l', off := c.off + 1 } c.off s1 hi1 obs r s' h
        have step : ∀ net net', readAtLeast (sockCut K s₀) c.off (c.buf.length - c.off) kMinBufLength c.buf c.numRead net = .ok (buf, l', net') →
            readNextCmd (sockCut K s₀) crc id { c with net := net }
              = processFile (sockCut K s₀) crc { c with buf := buf, numRead := l', net := net', off := c.off + 1 } c.off := by
          intro net net' e
          unfold readNextCmd
          simp only [e, if_neg hk, hlb, if_neg h1, if_pos h2]
        cases r with
        | stop o =>
          obtain ⟨d2, hd2, hi2, hrun2⟩ := hb2
          refine ⟨d ++ d2, hd.trans hd2, hi2, fun net ha ht => ?_⟩
          obtain ⟨net', e1, h5, h6⟩ := plain net d2 ha ht
          simp only
          rw [step net net' e1]
          exact hrun2 net' h5 h6
        | next c2 =>
          obtain ⟨d2, hd2, hi2, hrun2⟩ := hb2
          refine ⟨d ++ d2, hd.trans hd2, hi2, fun net tail ha ht => ?_⟩
          obtain ⟨net', e1, h5, h6⟩ := plain net (d2 ++ tail) ha (by rw [ht, List.append_assoc])
          obtain ⟨net2, e3, h7, h8⟩ := hrun2 net' tail h5 h6
          refine ⟨net2, ?_, h7, h8⟩
          simp only
          rw [step net net' e1]
          exact e3
      rw [if_neg h2] at h
      by_cases h3 : cmd = SETTINGS_CMD
      · rw [if_pos h3] at h
        refine blind _ (blind_settings id { c with buf := buf, numRead := l', off := c.off + 1 } c.off) ?_ ⟨c.net, h⟩
        intro net net' e
        unfold readNextCmd
        simp only [e, if_neg hk, hlb, if_neg h1, if_neg h2, if_pos h3]
      rw [if_neg h3] at h
      by_cases h4 : cmd = SIZE_CMD
      · rw [if_pos h4] at h
        refine blind _ (blind_size { c with buf := buf, numRead := l', off := c.off + 1 } c.off) ?_ ⟨c.net, h⟩
        intro net net' e
        unfold readNextCmd
        simp only [e, if_neg hk, hlb, if_neg h1, if_neg h2, if_neg h3, if_pos h4]
      rw [if_neg h4] at h
      cases h
      refine ⟨d, hd, hi1, fun net ha ht => ?_⟩
      obtain ⟨net', e, _⟩ := plain net [] ha (by simpa using ht)
      unfold readNextCmd
      simp only [e, if_neg hk, hlb, if_neg h1, if_neg h2, if_neg h3, if_neg h4]

/-- What the receiver thread did on the socket, it does on the bytes that were handed out. -/
theorem sReceive_back (hK : SockOK K Inv) (crc : Int → UInt8 → Int) (id : Bytes) :
    ∀ (fuel : Nat) (c : RcvConn) (s : σ), Inv s → ∀ obs o s', sReceive K crc id fuel c s = .ok (obs, o, s') →
      ∃ d, Delivers K s d s' ∧ Inv s' ∧ ∀ net, s = sockState K s₀ net.asked → net.rest = d →
        receive (sockCut K s₀) crc id fuel { c with net := net } = .ok (obs, o) := by
  intro fuel
  induction fuel with
  | zero => intro c s _ obs o s' h; cases h
  | succ fuel ih =>
    intro c s hi obs o s' h
    rw [sReceive] at h
    cases hn : sReadNextCmd K crc id c s with
    | error f => rw [hn] at h; cases h
    | ok q =>
      obtain ⟨obs1, r, s1⟩ := q
      rw [hn] at h
      have hb := sReadNextCmd_back (s₀ := s₀) hK crc id c s hi obs1 r s1 hn
      cases r with
      | stop o1 =>
        simp only at h
        cases h
        obtain ⟨d, hd, hi1, hrun⟩ := hb
        refine ⟨d, hd, hi1, fun net ha ht => ?_⟩
        have := hrun net ha ht
        simp only at this
        rw [receive, this]
      | next c1 =>
        simp only at h
        obtain ⟨d, hd, hi1, hrun⟩ := hb
        cases hr : sReceive K crc id fuel c1 s1 with
        | error f => rw [hr] at h; cases h
        | ok q =>
          obtain ⟨obs2, o2, s2⟩ := q
          rw [hr] at h
          simp only at h
          cases h
          obtain ⟨d2, hd2, hi2, hrun2⟩ := ih c1 s1 hi1 obs2 o s' hr
          refine ⟨d ++ d2, hd.trans hd2, hi2, fun net ha ht => ?_⟩
          obtain ⟨net', e, h5, h6⟩ := hrun net d2 ha ht
          simp only at e
          rw [receive, e]
          simp only
          rw [hrun2 net' h5 h6]

end

end Wdt
