import Verif.Model.ReceiverStream
import Verif.Lemmas.Protocol
/-
Helper lemmas for the receiver's stream parser: decoders only look at the bytes
they consume, and the read helpers append to the bytes already in the buffer.
-/
namespace Wdt

/-! ### Locality of decoders -/

/-- A successful decoder depends on the bytes it consumed only. -/
def Local {α : Type} (d : Dec α) : Prop :=
  ∀ br v br', d br = (some v, br') → ∃ w, br = w ++ br' ∧ Parses d w v

theorem Local.bind {α β : Type} {d : Dec α} {f : α → Dec β} (h1 : Local d) (h2 : ∀ a, Local (f a)) :
    Local (d.bind f) := by
  intro br v br' h
  unfold Dec.bind at h
  rcases hd : d br with ⟨_ | a, br1⟩
  · rw [hd] at h; simp at h
  · rw [hd] at h
    obtain ⟨w1, e1, p1⟩ := h1 _ _ _ hd
    obtain ⟨w2, e2, p2⟩ := h2 a _ _ _ h
    exact ⟨w1 ++ w2, by rw [e1, e2, List.append_assoc], p1.bind p2⟩

theorem local_pure {α : Type} (a : α) : Local (Dec.pure a) := by
  intro br v br' h
  simp only [Dec.pure, Prod.mk.injEq, Option.some.injEq] at h
  obtain ⟨rfl, rfl⟩ := h
  exact ⟨[], rfl, parses_pure _⟩

theorem local_fail {α : Type} : Local (Dec.fail (α := α)) := by
  intro br v br' h; simp [Dec.fail] at h

theorem Local.ite {α : Type} {c : Prop} [Decidable c] {d1 d2 : Dec α} (h1 : Local d1) (h2 : Local d2) :
    Local (if c then d1 else d2) := by
  split <;> assumption

theorem decVarLoop_local (fuel : Nat) : ∀ (shift val : Nat) (br : Bytes) (v : Nat) (rest : Bytes),
    decVarLoop fuel shift val br = some (v, rest) →
      ∃ w, br = w ++ rest ∧ ∀ x, decVarLoop fuel shift val (w ++ x) = some (v, x) := by
  induction fuel with
  | zero =>
    intro shift val br v rest h
    cases br with
    | nil => simp [decVarLoop] at h
    | cons b br =>
      simp only [decVarLoop, Option.some.injEq, Prod.mk.injEq] at h
      exact ⟨[b], by simp [h.2], fun x => by simp [decVarLoop, h.1]⟩
  | succ n ih =>
    intro shift val br v rest h
    cases br with
    | nil => simp [decVarLoop] at h
    | cons b br =>
      simp only [decVarLoop] at h
      split at h
      · rename_i hc
        obtain ⟨w, e, hw⟩ := ih _ _ _ _ _ h
        exact ⟨b :: w, by simp [e], fun x => by
          rw [List.cons_append, decVarLoop, if_pos hc, hw]⟩
      · rename_i hc
        simp only [Option.some.injEq, Prod.mk.injEq] at h
        exact ⟨[b], by simp [h.2], fun x => by
          rw [List.cons_append, decVarLoop, if_neg hc, h.1]; rfl⟩

theorem local_decodeUInt64 : Local decodeUInt64 := by
  intro br v br' h
  unfold decodeUInt64 at h
  rcases hd : decVarLoop 8 0 0 br with _ | ⟨v', r'⟩
  · rw [hd] at h; simp at h
  · rw [hd] at h
    simp only [Prod.mk.injEq, Option.some.injEq] at h
    obtain ⟨rfl, rfl⟩ := h
    obtain ⟨w, e, hw⟩ := decVarLoop_local 8 0 0 br _ _ hd
    exact ⟨w, e, fun x => by unfold decodeUInt64; rw [hw]⟩

theorem local_decodeInt64C : Local decodeInt64C := by
  intro br v br' h
  unfold decodeInt64C at h
  rcases hd : decodeUInt64 br with ⟨_ | u, r⟩
  · rw [hd] at h; simp at h
  · rw [hd] at h
    obtain ⟨w, e, hw⟩ := local_decodeUInt64 _ _ _ hd
    simp only at h
    split at h
    · simp at h
    · rename_i hc
      simp only [Prod.mk.injEq, Option.some.injEq] at h
      obtain ⟨rfl, rfl⟩ := h
      exact ⟨w, e, fun x => by unfold decodeInt64C; rw [hw]; simp only [if_neg hc]⟩

theorem local_decodeInt32C : Local decodeInt32C := by
  intro br v br' h
  unfold decodeInt32C at h
  rcases hd : decodeInt64C br with ⟨_ | u, r⟩
  · rw [hd] at h; simp at h
  · rw [hd] at h
    obtain ⟨w, e, hw⟩ := local_decodeInt64C _ _ _ hd
    simp only at h
    split at h
    · simp at h
    · rename_i hc
      simp only [Prod.mk.injEq, Option.some.injEq] at h
      obtain ⟨rfl, rfl⟩ := h
      exact ⟨w, e, fun x => by unfold decodeInt32C; rw [hw]; simp only [if_neg hc]⟩

theorem local_decodeString : Local decodeString := by
  intro br v br' h
  unfold decodeString at h
  rcases hd : decodeUInt64 br with ⟨_ | u, r⟩
  · rw [hd] at h; simp at h
  · rw [hd] at h
    obtain ⟨w, e, hw⟩ := local_decodeUInt64 _ _ _ hd
    simp only at h
    split at h
    · simp at h
    · rename_i hc
      simp only [Prod.mk.injEq, Option.some.injEq] at h
      obtain ⟨rfl, rfl⟩ := h
      refine ⟨w ++ r.take u, by rw [e, List.append_assoc, List.take_append_drop], fun x => ?_⟩
      unfold decodeString
      have hl : (r.take u).length = u := by rw [List.length_take]; omega
      rw [List.append_assoc, hw]
      simp only
      rw [if_neg (by rw [List.length_append, hl]; omega), List.take_left' hl, List.drop_left' hl]

theorem local_decodeByte : Local decodeByte := by
  intro br v br' h
  cases br with
  | nil => simp [decodeByte] at h
  | cons b r =>
    simp only [decodeByte, Prod.mk.injEq, Option.some.injEq] at h
    obtain ⟨rfl, rfl⟩ := h
    exact ⟨[b], rfl, parses_decodeByte b⟩

/-- The header decoder as a function of the bytes available
(Protocol.cpp:168-196, without the range plumbing). -/
def headerDec (ver : Int) : Dec BlockDetails :=
  (decodeHeaderFixed {}).bind fun b =>
    if ver ≥ HEADER_FLAG_AND_PREV_SEQ_ID_VERSION then decodeHeaderFlags b else Dec.pure b

theorem local_headerDec (ver : Int) : Local (headerDec ver) := by
  unfold headerDec decodeHeaderFixed
  refine Local.bind ?_ fun b => Local.ite ?_ (local_pure _)
  · exact local_decodeString.bind fun _ => local_decodeInt64C.bind fun _ => local_decodeInt64C.bind fun _ =>
      local_decodeInt64C.bind fun _ => local_decodeInt64C.bind fun _ => local_pure _
  · unfold decodeHeaderFlags
    exact local_decodeByte.bind fun _ => Local.ite (local_decodeInt64C.bind fun _ => local_pure _) (local_pure _)

theorem decodeHeader_eq {ver : Int} {src : Bytes} {off max : Int} {br : Bytes}
    (hr : makeByteRange src max off = .ok br) :
    ∃ o, decodeHeader ver {} src off max = .ok ((headerDec ver br).1, o) ∧
      ((headerDec ver br).1 ≠ none → o = off + ((br.length : Int) - (headerDec ver br).2.length)) := by
  unfold decodeHeader headerDec Dec.bind
  rw [hr]
  rcases hd : decodeHeaderFixed {} br with ⟨_ | b, br'⟩
  · simp only [hd]
    exact ⟨_, rfl, fun h => absurd rfl h⟩
  · simp only [hd]
    by_cases hv : ver ≥ HEADER_FLAG_AND_PREV_SEQ_ID_VERSION
    · simp only [if_pos hv]
      by_cases he : br' = []
      · subst he
        refine ⟨off, by simp [decodeHeaderFlags, Dec.bind, decodeByte], ?_⟩
        intro h; exact absurd (by simp [decodeHeaderFlags, Dec.bind, decodeByte]) h
      · rw [if_neg he]; exact ⟨_, rfl, fun _ => rfl⟩
    · simp only [if_neg hv]
      exact ⟨_, rfl, fun _ => rfl⟩

/-- The settings decoder as a function of the bytes available
(Protocol.cpp:492-521, without the range plumbing). -/
def settingsDec (ver : Int) : Dec Settings :=
  (decodeSettingsFixed {}).bind fun s =>
    if ver ≥ SETTINGS_FLAG_VERSION then
      decodeByte.bind fun flags => Dec.pure { s with
        enableChecksum := decide (flags.toNat &&& 1 ≠ 0)
        sendFileChunks := decide (flags.toNat &&& (1 <<< 1) ≠ 0)
        blockModeDisabled := decide (flags.toNat &&& (1 <<< 2) ≠ 0)
        enableHeartBeat := decide (flags.toNat &&& (1 <<< 3) ≠ 0) }
    else Dec.pure s

theorem local_settingsDec (ver : Int) : Local (settingsDec ver) := by
  unfold settingsDec decodeSettingsFixed
  refine Local.bind ?_ fun b => Local.ite ?_ (local_pure _)
  · exact local_decodeInt32C.bind fun _ => local_decodeInt32C.bind fun _ => local_decodeString.bind fun _ => local_pure _
  · exact local_decodeByte.bind fun _ => local_pure _

theorem decodeSettings_eq {ver : Int} {src : Bytes} {off max : Int} {br : Bytes} (h0 : 0 ≤ off) (h1 : off < max)
    (hr : makeByteRange src max off = .ok br) {s : Settings} {r : Bytes} (hd : settingsDec ver br = (some s, r)) :
    decodeSettings ver {} src off max = .ok (some s, off + ((br.length : Int) - r.length)) := by
  unfold decodeSettings
  rw [if_neg (by omega), if_neg (by omega), hr]
  unfold settingsDec Dec.bind at hd
  simp only
  rcases hf : decodeSettingsFixed {} br with ⟨_ | b, br'⟩
  · rw [hf] at hd; simp at hd
  · rw [hf] at hd
    simp only at hd ⊢
    split at hd
    · rename_i hv
      rw [if_pos hv]
      cases br' with
      | nil => simp [decodeByte] at hd
      | cons f br'' =>
        simp only [decodeByte, Dec.pure, Prod.mk.injEq, Option.some.injEq] at hd
        obtain ⟨rfl, rfl⟩ := hd
        rfl
    · rename_i hv
      rw [if_neg hv]
      simp only [Dec.pure, Prod.mk.injEq, Option.some.injEq] at hd
      obtain ⟨rfl, rfl⟩ := hd
      rfl

/-! ### Segments -/

theorem makeByteRange_seg (buf : Bytes) (a b : Int) (h0 : 0 ≤ a) (h1 : a ≤ b) (h2 : b ≤ buf.length) :
    makeByteRange buf b a = .ok (seg buf a b) := by
  unfold makeByteRange seg
  rw [if_neg (by omega), if_neg (by omega)]

theorem seg_append (buf : Bytes) (a b c : Int) (_h0 : 0 ≤ a) (h1 : a ≤ b) (h2 : b ≤ c) (h3 : c ≤ buf.length) :
    seg buf a c = seg buf a b ++ seg buf b c := by
  unfold seg
  apply List.ext_getElem?
  intro i
  rw [List.getElem?_drop, List.getElem?_take, List.getElem?_append, List.length_drop, List.length_take,
    List.getElem?_drop, List.getElem?_take, List.getElem?_drop, List.getElem?_take]
  have e1 : min b.toNat buf.length - a.toNat = b.toNat - a.toNat := by omega
  rw [e1]
  by_cases hi : i < b.toNat - a.toNat
  · rw [if_pos hi, if_pos (by omega), if_pos (by omega)]
  · rw [if_neg hi]
    have e2 : b.toNat + (i - (b.toNat - a.toNat)) = a.toNat + i := by omega
    rw [e2]

theorem seg_stream_prefix {buf : Bytes} {off n : Int} {s rest : Bytes} (h0 : 0 ≤ off)
    (hb : off + n ≤ buf.length) (hs : s = seg buf off (off + n) ++ rest) (a k : Nat) (hak : a ≤ k) (hk : (k : Int) ≤ n) :
    seg buf (off + a) (off + k) = (s.take k).drop a := by
  have h1 : seg buf off (off + n) = seg buf off (off + k) ++ seg buf (off + k) (off + n) :=
    seg_append _ _ _ _ h0 (by omega) (by omega) (by omega)
  have hl : (seg buf off (off + k)).length = k := by
    have := seg_length buf off (off + k) h0 (by omega) (by omega)
    omega
  have h2 : s.take k = seg buf off (off + k) := by
    rw [hs, h1, List.append_assoc, List.take_left' hl]
  have h3 : seg buf off (off + k) = seg buf off (off + a) ++ seg buf (off + a) (off + k) :=
    seg_append _ _ _ _ h0 (by omega) (by omega) (by omega)
  have hl' : (seg buf off (off + a)).length = a := by
    have := seg_length buf off (off + a) h0 (by omega) (by omega)
    omega
  rw [h2, h3, List.drop_left' hl']

theorem seg_splice_stream {buf : Bytes} {base len : Int} {bs : Bytes} (h0 : 0 ≤ base) (hl : 0 ≤ len)
    (hb : base + len + bs.length ≤ buf.length) :
    seg (splice buf (base + len).toNat bs) base (base + (len + bs.length)) = seg buf base (base + len) ++ bs := by
  have hsl : (splice buf (base + len).toNat bs).length = buf.length := splice_length _ _ _ (by omega)
  apply List.ext_getElem?
  intro i
  unfold seg
  rw [List.getElem?_drop, List.getElem?_take, List.getElem?_append, List.length_drop, List.length_take,
    List.getElem?_drop, List.getElem?_take, splice_getElem? _ _ _ (by omega)]
  have e1 : min (base + len).toNat buf.length - base.toNat = len.toNat := by omega
  rw [e1]
  by_cases h1 : i < len.toNat
  · rw [if_pos h1, if_pos (by omega), if_pos (by omega), if_pos (by omega)]
  · rw [if_neg h1]
    by_cases h2 : i - len.toNat < bs.length
    · rw [if_pos (by omega), if_neg (by omega), if_pos (by omega)]
      congr 1; omega
    · rw [if_neg (by omega), List.getElem?_eq_none (by omega)]

/-! ### Reading -/

theorem netRead_append (frag : List Int → Nat) (n : Int) (net : RNet) :
    (netRead frag n net).1 ++ (netRead frag n net).2.rest = net.rest := by
  simp [netRead]

theorem netRead_length (frag : List Int → Nat) (n : Int) (net : RNet) (hn : 0 ≤ n) :
    ((netRead frag n net).1.length : Int) ≤ n := by
  simp only [netRead, List.length_take]; omega

theorem netRead_nil {frag : List Int → Nat} {n : Int} {net : RNet} (hn : 0 < n) (h : (netRead frag n net).1 = []) :
    net.rest = [] := by
  simp only [netRead, List.take_eq_nil_iff] at h
  rcases h with h | h
  · omega
  · exact h

theorem readAtLeastLoop_spec (frag : List Int → Nat) (base max atLeast : Int) (h0 : 0 ≤ base) (hm : atLeast ≤ max) :
    ∀ (fuel : Nat) (buf : Bytes) (len : Int) (net : RNet), net.rest.length < fuel → 0 ≤ len → len ≤ max →
      base + max ≤ buf.length →
      ∃ buf' len' net', readAtLeastLoop frag base max atLeast fuel buf len net = .ok (buf', len', net') ∧
        buf'.length = buf.length ∧ len ≤ len' ∧ len' ≤ max ∧
        seg buf' base (base + len') ++ net'.rest = seg buf base (base + len) ++ net.rest ∧
        (atLeast ≤ len' ∨ net'.rest = []) := by
  intro fuel
  induction fuel with
  | zero => intro buf len net h; omega
  | succ fuel ih =>
    intro buf len net hf hl hlm hb
    rw [readAtLeastLoop]
    by_cases hlt : len < atLeast
    · rw [if_pos hlt]
      by_cases he : (netRead frag (max - len) net).1 = []
      · rw [if_pos he]
        have hr := netRead_nil (by omega) he
        have ha := netRead_append frag (max - len) net
        rw [he, List.nil_append] at ha
        exact ⟨_, _, _, rfl, rfl, Int.le_refl _, hlm, by rw [ha], .inr (by rw [ha, hr])⟩
      · rw [if_neg he]
        have hlen := netRead_length frag (max - len) net (by omega)
        have ha := netRead_append frag (max - len) net
        generalize hd : (netRead frag (max - len) net).1 = d at *
        generalize hn' : (netRead frag (max - len) net).2 = net1 at *
        have hdl : 1 ≤ d.length := by
          cases d with
          | nil => exact absurd rfl he
          | cons _ _ => simp
        have hst := storeBytes_ok d buf (base + len) (by omega) (by omega)
        rw [hst]
        simp only
        have hrl : net1.rest.length + d.length = net.rest.length := by
          rw [← ha, List.length_append]; omega
        have hspl : (splice buf (base + len).toNat d).length = buf.length := splice_length _ _ _ (by omega)
        obtain ⟨buf', len', net', e, hbl, h1, h2, h3, h4⟩ :=
          ih (splice buf (base + len).toNat d) (len + d.length) net1 (by omega) (by omega) (by omega) (by omega)
        refine ⟨buf', len', net', e, by omega, by omega, h2, ?_, h4⟩
        rw [h3, seg_splice_stream h0 hl (by omega), List.append_assoc, ha]
    · rw [if_neg hlt]
      exact ⟨_, _, _, rfl, rfl, Int.le_refl _, hlm, rfl, .inl (by omega)⟩

theorem readAtLeast_spec (frag : List Int → Nat) (base max atLeast : Int) (buf : Bytes) (len : Int) (net : RNet)
    (h0 : 0 ≤ base) (ha : 0 < atLeast) (hm : atLeast ≤ max) (hl : 0 ≤ len) (hlm : len ≤ max)
    (hb : base + max ≤ buf.length) :
    ∃ buf' len' net', readAtLeast frag base max atLeast buf len net = .ok (buf', len', net') ∧
      buf'.length = buf.length ∧ len ≤ len' ∧ len' ≤ max ∧
      seg buf' base (base + len') ++ net'.rest = seg buf base (base + len) ++ net.rest ∧
      (atLeast ≤ len' ∨ net'.rest = []) := by
  unfold readAtLeast
  rw [if_neg (by omega), if_neg (by omega), if_neg (by omega)]
  exact readAtLeastLoop_spec frag base max atLeast h0 hm _ buf len net (by omega) hl hlm hb

theorem readBlockLoop_spec (frag : List Int → Nat) : ∀ (fuel : Nat) (buf : Bytes) (missing : Int) (net : RNet),
    net.rest.length < fuel → 0 ≤ missing → 0 < buf.length →
      ∃ buf' net', readBlockLoop frag fuel buf missing net = .ok (buf', net.rest.take missing.toNat, net') ∧
        buf'.length = buf.length ∧ net'.rest = net.rest.drop missing.toNat ∧ (missing = 0 → buf' = buf) := by
  intro fuel
  induction fuel with
  | zero => intro buf missing net h; omega
  | succ fuel ih =>
    intro buf missing net hf hm hb
    rw [readBlockLoop]
    by_cases hlt : missing > 0
    · rw [if_pos hlt]
      by_cases he : (netRead frag (min missing buf.length) net).1 = []
      · rw [if_pos he]
        have hr := netRead_nil (by omega) he
        have ha := netRead_append frag (min missing buf.length) net
        rw [he, List.nil_append] at ha
        refine ⟨_, _, by rw [hr, List.take_nil], rfl, by rw [ha, hr, List.drop_nil], fun h => by omega⟩
      · rw [if_neg he]
        have hlen := netRead_length frag (min missing buf.length) net (by omega)
        have ha := netRead_append frag (min missing buf.length) net
        generalize hd : (netRead frag (min missing buf.length) net).1 = d at *
        generalize hn' : (netRead frag (min missing buf.length) net).2 = net1 at *
        have hdl : 1 ≤ d.length := by
          cases d with
          | nil => exact absurd rfl he
          | cons _ _ => simp
        have hst := storeBytes_ok d buf 0 (by omega) (by omega)
        rw [hst]
        simp only
        have hrl : net1.rest.length + d.length = net.rest.length := by
          rw [← ha, List.length_append]; omega
        have hspl : (splice buf (0 : Int).toNat d).length = buf.length := splice_length _ _ _ (by omega)
        obtain ⟨buf', net', e, hbl, h1, _⟩ :=
          ih (splice buf (0 : Int).toNat d) (missing - d.length) net1 (by omega) (by omega) (by omega)
        rw [e]
        have e2 : (missing - d.length).toNat = missing.toNat - d.length := by omega
        refine ⟨buf', net', ?_, by omega, ?_, fun h => by omega⟩
        · simp only
          have e3 : d.take missing.toNat = d := List.take_of_length_le (by omega)
          rw [← ha, List.take_append, e2, e3]
        · have e3 : d.drop missing.toNat = [] := List.drop_of_length_le (by omega)
          rw [h1, ← ha, List.drop_append, e2, e3, List.nil_append]
    · rw [if_neg hlt]
      have : missing = 0 := by omega
      subst this
      exact ⟨buf, net, by simp, rfl, by simp, fun _ => rfl⟩

theorem loadByte_seg {buf : Bytes} {off n : Int} {s rest : Bytes} (h0 : 0 ≤ off) (hn : 1 ≤ n)
    (hb : off + n ≤ buf.length) (hs : s = seg buf off (off + n) ++ rest) :
    ∃ b s', loadByte buf off = .ok b ∧ s = b :: s' := by
  have hc := seg_cons buf off (off + n) h0 (by omega) hb
  unfold loadByte
  rw [if_pos (by omega), List.getElem?_eq_getElem (by omega)]
  obtain ⟨b, hb1, hb2⟩ := hc
  unfold loadByte at hb1
  rw [if_pos (by omega), List.getElem?_eq_getElem (by omega)] at hb1
  exact ⟨b, _, hb1, by rw [hs, hb2]; rfl⟩

end Wdt
