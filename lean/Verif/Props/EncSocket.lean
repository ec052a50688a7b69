import Verif.Model.EncSocket
import Mathlib.Tactic.ByContra
/-
C35: an encrypted stream decodes to what was written, whatever the sizes of the
writes and of the reads.

The reference is `wire`: the bytes on the socket as a function of the plaintext
alone, byte by byte.  Before the plaintext byte at a non-zero multiple of the tag
interval comes the tag of everything encrypted so far under the current vector
and, when the vector has to be changed, the new vector.
-/
namespace Wdt

/-- There is a tag just before the plaintext byte number `pos`. -/
def TagAt (T pos : Int) : Prop := 0 < T ∧ pos ≠ 0 ∧ pos % T = 0

instance (T pos : Int) : Decidable (TagAt T pos) := by unfold TagAt; infer_instance

/-- Reference state: cipher state and number of vectors used. -/
structure WSt where
  st : EncSt
  nextIv : Nat
deriving DecidableEq

/-- What precedes the next byte of data. -/
def preamble (C : Cipher) (ivs : Nat → Bytes) (T I : Int) (s : WSt) : Bytes × WSt :=
  if TagAt T s.st.total then
    if I ≠ 0 ∧ I < s.st.done.length + T then
      (C.tag s.st.iv s.st.done ++ ivs s.nextIv, ⟨{ s.st with iv := ivs s.nextIv, done := [] }, s.nextIv + 1⟩)
    else (C.tag s.st.iv s.st.done, s)
  else ([], s)

/-- One encrypted byte. -/
def encByte (C : Cipher) (x : UInt8) (s : WSt) : UInt8 := C.enc s.st.iv s.st.done.length x

/-- State after one byte. -/
def afterByte (C : Cipher) (x : UInt8) (s : WSt) : WSt :=
  { s with st := { s.st with done := s.st.done ++ [encByte C x s], total := s.st.total + 1 } }

/-- The bytes on the socket for a plaintext, and the state afterwards. -/
def wire (C : Cipher) (ivs : Nat → Bytes) (T I : Int) : WSt → Bytes → Bytes × WSt
  | s, [] => ([], s)
  | s, x :: xs =>
    ((preamble C ivs T I s).1 ++ encByte C x (preamble C ivs T I s).2
        :: (wire C ivs T I (afterByte C x (preamble C ivs T I s).2) xs).1,
     (wire C ivs T I (afterByte C x (preamble C ivs T I s).2) xs).2)

/-- Plain encryption of some bytes. -/
def raw (C : Cipher) (s : WSt) (bs : Bytes) : Bytes × WSt :=
  (encBytes C.enc s.st.iv s.st.done.length bs,
   { s with st := { s.st with done := s.st.done ++ encBytes C.enc s.st.iv s.st.done.length bs,
                              total := s.st.total + bs.length } })

section
variable {C : Cipher} {ivs : Nat → Bytes} {T I : Int}

theorem wire_append (s : WSt) (a b : Bytes) :
    wire C ivs T I s (a ++ b)
      = ((wire C ivs T I s a).1 ++ (wire C ivs T I (wire C ivs T I s a).2 b).1,
         (wire C ivs T I (wire C ivs T I s a).2 b).2) := by
  induction a generalizing s with
  | nil => rfl
  | cons x xs ih => simp only [List.cons_append, wire, ih, List.append_assoc]

theorem preamble_total (s : WSt) : (preamble C ivs T I s).2.st.total = s.st.total := by
  unfold preamble; split
  · split <;> rfl
  · rfl

theorem wire_total (s : WSt) (a : Bytes) : (wire C ivs T I s a).2.st.total = s.st.total + a.length := by
  induction a generalizing s with
  | nil => simp [wire]
  | cons x xs ih =>
    simp only [wire, ih, afterByte, preamble_total, List.length_cons]; omega

theorem encBytes_append (f) (iv : Bytes) (p : Nat) (a b : Bytes) :
    encBytes f iv p (a ++ b) = encBytes f iv p a ++ encBytes f iv (p + a.length) b := by
  induction a generalizing p with
  | nil => simp [encBytes]
  | cons x xs ih => simp only [List.cons_append, encBytes, ih, List.length_cons]; congr 3; omega

theorem encBytes_length (f) (iv : Bytes) (p : Nat) (a : Bytes) : (encBytes f iv p a).length = a.length := by
  induction a generalizing p with
  | nil => rfl
  | cons x xs ih => simp [encBytes, ih]

theorem encBytes_take (f) (iv : Bytes) (p n : Nat) (a : Bytes) :
    (encBytes f iv p a).take n = encBytes f iv p (a.take n) := by
  induction a generalizing p n with
  | nil => simp [encBytes]
  | cons x xs ih =>
    cases n with
    | zero => simp [encBytes]
    | succ n => simp [encBytes, ih]

theorem encBytes_dec (hC : ∀ iv p b, C.dec iv p (C.enc iv p b) = b) (iv : Bytes) (p : Nat) (a : Bytes) :
    encBytes C.dec iv p (encBytes C.enc iv p a) = a := by
  induction a generalizing p with
  | nil => rfl
  | cons x xs ih => simp [encBytes, hC, ih]

theorem preamble_none {s : WSt} (h : ¬TagAt T s.st.total) : preamble C ivs T I s = ([], s) := by
  unfold preamble; rw [if_neg h]

/-- Bytes with no tag among them are encrypted one after the other. -/
theorem wire_raw (s : WSt) (bs : Bytes) (h : ∀ i : Nat, i < bs.length → ¬TagAt T (s.st.total + i)) :
    wire C ivs T I s bs = raw C s bs := by
  induction bs generalizing s with
  | nil => simp [wire, raw, encBytes]
  | cons x xs ih =>
    have h0 : ¬TagAt T s.st.total := by have := h 0 (by simp); simpa using this
    have ih' := ih (afterByte C x s) (by
      intro i hi
      have := h (i + 1) (by simp; omega)
      have he : (afterByte C x s).st.total + (i : Int) = s.st.total + ((i + 1 : Nat) : Int) := by
        simp only [afterByte]; omega
      rw [he]; exact this)
    simp only [wire, preamble_none h0]
    rw [ih']
    simp [raw, afterByte, encByte, encBytes, Int.add_assoc, Int.add_comm 1]

/-- Bytes with a tag in front of the first one only. -/
theorem wire_tag_raw (s : WSt) (bs : Bytes) (hne : bs ≠ [])
    (h : ∀ i : Nat, 0 < i → i < bs.length → ¬TagAt T (s.st.total + i)) :
    wire C ivs T I s bs = ((preamble C ivs T I s).1 ++ (raw C (preamble C ivs T I s).2 bs).1,
      (raw C (preamble C ivs T I s).2 bs).2) := by
  cases bs with
  | nil => exact absurd rfl hne
  | cons x xs =>
    generalize hs' : (preamble C ivs T I s).2 = s'
    have ht : s'.st.total = s.st.total := by rw [← hs']; exact preamble_total s
    have := wire_raw (C := C) (ivs := ivs) (T := T) (I := I) (afterByte C x s') xs (by
      intro i hi
      have := h (i + 1) (by omega) (by simp; omega)
      have he : (afterByte C x s').st.total + (i : Int) = s.st.total + ((i + 1 : Nat) : Int) := by
        simp only [afterByte, ht]; omega
      rw [he]; exact this)
    simp only [wire, hs']
    rw [this]
    simp [raw, afterByte, encByte, encBytes, Int.add_assoc, Int.add_comm 1]

/-! ### Positions of tags -/

theorem emod_step {T a : Int} (hT : 0 < T) {i : Int} (hi : 0 ≤ i) (h : a % T + i < T) : (a + i) % T = a % T + i := by
  have h1 := Int.emod_nonneg a (by omega : T ≠ 0)
  have h2 : a + i = (a % T + i) + T * (a / T) := by have := Int.emod_add_mul_ediv a T; omega
  rw [h2, Int.add_mul_emod_self_left, Int.emod_eq_of_lt (by omega) h]

/-- `computeNextTagOffset` is the distance to the next tag. -/
theorem tagOffset_spec {T a : Int} (hT : 0 < T) (ha : 0 ≤ a) :
    0 ≤ computeNextTagOffset a T ∧ TagAt T (a + computeNextTagOffset a T)
      ∧ ∀ i : Int, 0 ≤ i → i < computeNextTagOffset a T → ¬TagAt T (a + i) := by
  have h1 := Int.emod_nonneg a (by omega : T ≠ 0)
  have h2 := Int.emod_lt_of_pos a hT
  unfold computeNextTagOffset
  by_cases h0 : a = 0
  · subst h0
    rw [if_pos rfl]
    refine ⟨by omega, ⟨hT, by omega, by simp⟩, fun i hi hlt hc => ?_⟩
    have := emod_step (a := 0) hT hi (by simpa using hlt)
    rw [hc.2.2] at this
    have : i = 0 := by simpa using this.symm
    subst this; exact hc.2.1 rfl
  · rw [if_neg h0]
    by_cases hz : a % T = 0
    · rw [if_pos (by omega)]
      exact ⟨Int.le_refl _, ⟨hT, by simpa using h0, by simpa using hz⟩, fun i hi hlt => by omega⟩
    · rw [if_neg (by omega)]
      refine ⟨by omega, ⟨hT, by omega, ?_⟩, fun i hi hlt hc => ?_⟩
      · have : a + (T - a % T) = T * (a / T) + T := by have := Int.emod_add_mul_ediv a T; omega
        rw [this, Int.add_emod_right, Int.mul_emod_right]
      · have := emod_step (a := a) hT hi (by omega)
        rw [hc.2.2] at this; omega

/-- After a tag the next one is a whole interval away. -/
theorem tag_gap {T a : Int} (h : TagAt T a) {i : Int} (hi : 0 < i) (hlt : i < T) : ¬TagAt T (a + i) := by
  intro hc
  have := emod_step (a := a) h.1 (by omega : 0 ≤ i) (by rw [h.2.2]; omega)
  rw [hc.2.2, h.2.2] at this; omega

/-! ### Writing -/

/-- Reference state of the writer. -/
def EncW.ref (w : EncW) : WSt := ⟨w.st, w.nextIv⟩

/-- The writer after writing what `p` says. -/
def EncW.put (w : EncW) (p : Bytes × WSt) : EncW := { st := p.2.st, nextIv := p.2.nextIv, out := w.out ++ p.1 }

theorem encryptAndWrite_raw (w : EncW) (bs : Bytes) (h : bs ≠ []) :
    encryptAndWrite C bs w = .ok (w.put (raw C w.ref bs)) := by
  unfold encryptAndWrite; rw [if_neg h]; rfl

theorem writeTag_preamble (w : EncW) (h : TagAt T w.st.total) :
    changeEncryptionIv ivs T I (writeEncryptionTag C w) = w.put (preamble C ivs T I w.ref) := by
  have h' : TagAt T w.ref.st.total := h
  unfold changeEncryptionIv preamble
  by_cases h0 : I = 0
  · rw [if_pos h0, if_pos h', if_neg (by omega)]; rfl
  · rw [if_neg h0, if_pos h']
    by_cases hl : (w.st.done.length : Int) + T ≤ I
    · rw [if_pos (by exact hl), if_neg (by show ¬(I ≠ 0 ∧ I < (w.st.done.length : Int) + T); omega)]; rfl
    · rw [if_neg (by exact hl), if_pos (by show I ≠ 0 ∧ I < (w.st.done.length : Int) + T; omega)]
      simp [EncW.put, EncW.ref, writeEncryptionTag]

theorem put_put (w : EncW) (p q : Bytes × WSt) : (w.put p).put q = w.put (p.1 ++ q.1, q.2) := by
  simp [EncW.put, List.append_assoc]

theorem put_ref (w : EncW) (p : Bytes × WSt) : (w.put p).ref = p.2 := rfl

theorem encryptAndWriteWithTag_wire (hT : 0 < T) (w : EncW) (bs : Bytes) (hne : bs ≠ [])
    (hlen : (bs.length : Int) ≤ T) (h0 : 0 ≤ w.st.total) :
    encryptAndWriteWithTag C ivs T I bs w = .ok (w.put (wire C ivs T I w.ref bs)) := by
  obtain ⟨g0, gt, gn⟩ := tagOffset_spec hT h0
  unfold encryptAndWriteWithTag
  rw [if_neg (by omega), if_neg (by omega)]
  generalize hoff : computeNextTagOffset w.st.total T = off at *
  by_cases hlt : off < bs.length
  · rw [if_pos hlt]
    by_cases hpos : off > 0
    · simp only [if_pos hpos]
      have ht : bs.take off.toNat ≠ [] := by
        intro hc
        have := congrArg List.length hc
        rw [List.length_take, List.length_nil] at this; omega
      have hd : bs.drop off.toNat ≠ [] := by
        intro hc
        have := congrArg List.length hc
        rw [List.length_drop, List.length_nil] at this; omega
      rw [encryptAndWrite_raw w _ ht]
      have hl : (bs.take off.toNat).length = off.toNat := by rw [List.length_take]; omega
      have htot : (w.put (raw C w.ref (bs.take off.toNat))).st.total = w.st.total + off := by
        simp only [EncW.put, raw, EncW.ref, hl]; omega
      have htag : TagAt T (w.put (raw C w.ref (bs.take off.toNat))).st.total := by rw [htot]; exact gt
      show (if (w.put (raw C w.ref (bs.take off.toNat))).st.total % T ≠ 0 then _ else _) = _
      rw [if_neg (by simpa using htag.2.2), writeTag_preamble _ htag, encryptAndWrite_raw _ _ hd]
      congr 1
      have hw1 : wire C ivs T I w.ref (bs.take off.toNat) = raw C w.ref (bs.take off.toNat) :=
        wire_raw _ _ (fun i hi => gn i (by omega) (by rw [hl] at hi; omega))
      have hspl : bs = bs.take off.toNat ++ bs.drop off.toNat := (List.take_append_drop _ _).symm
      conv => rhs; rw [hspl]
      rw [wire_append, hw1]
      rw [wire_tag_raw (raw C w.ref (bs.take off.toNat)).2 (bs.drop off.toNat) hd]
      · rw [put_ref, put_put, put_put, put_ref]
      · intro i hi hi2
        have : (raw C w.ref (bs.take off.toNat)).2.st.total = w.st.total + off := htot
        rw [this]
        rw [List.length_drop] at hi2
        exact tag_gap gt (by omega) (by omega)
    · have hz : off = 0 := by omega
      subst hz
      simp only [if_neg hpos]
      have htag : TagAt T w.st.total := by simpa using gt
      rw [if_neg (by simpa using htag.2.2), writeTag_preamble _ htag, List.drop_zero, encryptAndWrite_raw _ _ hne]
      congr 1
      rw [wire_tag_raw w.ref bs hne (fun i hi hi2 => tag_gap htag (by omega) (by omega))]
      rw [put_ref, put_put]
  · rw [if_neg hlt, encryptAndWrite_raw _ _ hne]
    congr 2
    exact (wire_raw _ _ (fun i hi => gn i (by omega) (by omega))).symm

theorem put_total (w : EncW) (bs : Bytes) :
    (w.put (wire C ivs T I w.ref bs)).st.total = w.st.total + bs.length := wire_total _ _

theorem writeLoop_wire (hT : 0 < T) : ∀ (fuel : Nat) (bs : Bytes) (w : EncW), bs.length < fuel → 0 ≤ w.st.total →
    writeLoop C ivs T I fuel bs w = .ok (w.put (wire C ivs T I w.ref bs)) := by
  intro fuel
  induction fuel with
  | zero => intro bs w h; omega
  | succ fuel ih =>
    intro bs w h h0
    unfold writeLoop
    by_cases he : bs = []
    · subst he; simp [wire, EncW.put, EncW.ref]
    · rw [if_neg he]
      have hpos : 0 < bs.length := List.length_pos_iff.2 he
      have ht : bs.take T.toNat ≠ [] := by
        intro hc
        have := congrArg List.length hc
        rw [List.length_take, List.length_nil] at this; omega
      rw [encryptAndWriteWithTag_wire hT w _ ht (by rw [List.length_take]; omega) h0]
      simp only []
      rw [ih _ _ (by rw [List.length_drop]; omega) (by rw [put_total]; omega)]
      congr 1
      have hspl : bs = bs.take T.toNat ++ bs.drop T.toNat := (List.take_append_drop _ _).symm
      conv => rhs; rw [hspl]
      rw [wire_append, put_put, put_ref]

theorem encWrite_wire (hT : 0 ≤ T) (w : EncW) (bs : Bytes) (hne : bs ≠ []) (h0 : 0 ≤ w.st.total) :
    encWrite C ivs T I bs w = .ok (w.put (wire C ivs T I w.ref bs)) := by
  unfold encWrite
  rw [if_neg hne]
  by_cases h : T ≤ 0
  · rw [if_pos h, encryptAndWrite_raw _ _ hne]
    congr 2
    exact (wire_raw _ _ (fun i hi hc => by have := hc.1; omega)).symm
  · rw [if_neg h, writeLoop_wire (by omega) _ _ _ (by omega) h0]

theorem encWrites_wire (hT : 0 ≤ T) : ∀ (l : List Bytes) (w : EncW), (∀ bs ∈ l, bs ≠ []) → 0 ≤ w.st.total →
    encWrites C ivs T I l w = .ok (w.put (wire C ivs T I w.ref l.flatten)) := by
  intro l
  induction l with
  | nil => intro w _ _; simp [encWrites, wire, EncW.put, EncW.ref]
  | cons bs l ih =>
    intro w h h0
    unfold encWrites
    rw [encWrite_wire hT w bs (h bs (by simp)) h0]
    simp only []
    rw [ih _ (fun b hb => h b (by simp [hb])) (by rw [put_total]; omega)]
    congr 1
    rw [List.flatten_cons, wire_append, put_put, put_ref]

/-! ### Reading -/

/-- The reader is where a writer with state `s` is, and `rest` is the plaintext to
come. -/
structure InSync (C : Cipher) (ivs : Nat → Bytes) (T I : Int) (r : EncR) (s : WSt) (rest : Bytes) : Prop where
  st : r.st = s.st
  inp : r.net.rest = (wire C ivs T I s rest).1
  nonneg : 0 ≤ s.st.total

/-- Assumptions about the cipher: decryption inverts encryption, tags and vectors
have their length. -/
structure CipherOK (C : Cipher) (ivs : Nat → Bytes) : Prop where
  inv : ∀ iv p b, C.dec iv p (C.enc iv p b) = b
  tagLen : ∀ iv d, (C.tag iv d).length = kTagLen
  ivLen : ∀ k, (ivs k).length = kTagLen

/-- A read of up to `n` bytes that are encrypted one after the other; `tl m` is what
follows the first `m` of them. -/
theorem readAndDecrypt_core (hC : CipherOK C ivs) (frag : Nat → Nat) {r : EncR} {s : WSt} {rest : Bytes}
    (hst : r.st = s.st) {n : Int} (hn : 0 < n) (full : Bool) (tl : Nat → Bytes)
    (hin : ∀ m : Nat, 0 < m → (m : Int) ≤ n → m ≤ rest.length → r.net.rest = (raw C s (rest.take m)).1 ++ tl m)
    (hend : tl rest.length = []) (hnil : rest = [] → r.net.rest = []) :
    ∃ (m : Nat) (r' : EncR),
      readAndDecrypt C (fun k => some (frag k)) n full r = .ok (m, rest.take m, r')
      ∧ r'.st = (raw C s (rest.take m)).2.st ∧ r'.net.rest = (if rest = [] then [] else tl m)
      ∧ m ≤ rest.length ∧ (m : Int) ≤ n ∧ (m = 0 ↔ rest = [])
      ∧ (full = true → (m : Int) = min n rest.length)
      ∧ r'.err = (if rest = [] then eSOCKET_READ_ERROR else eOK) := by
  generalize hg : (if full = true then n.toNat else min (frag r.net.k + 1) n.toNat) = g
  have hgn : g ≤ n.toNat := by rw [← hg]; split <;> omega
  have hg0 : 0 < g := by rw [← hg]; split <;> omega
  have hlenraw : ∀ m, m ≤ rest.length → (raw C s (rest.take m)).1.length = m := by
    intro m hm
    simp only [raw, encBytes_length, List.length_take]; omega
  unfold readAndDecrypt
  rw [if_neg (by omega)]
  simp only [readInternal, hg]
  by_cases hr : rest = []
  · subst hr
    simp only [hnil rfl, List.take_nil, if_true]
    refine ⟨0, { r with err := eSOCKET_READ_ERROR, net := { r.net with k := r.net.k + 1 } }, by simp [hnil], ?_, hnil rfl, by simp, by omega, by simp, ?_, rfl⟩
    · simp [raw, encBytes, hst]
    · intro _; simp; omega
  · have hpos : 0 < rest.length := List.length_pos_iff.2 hr
    generalize hm : min g rest.length = m
    have hml : m ≤ rest.length := by omega
    have hm1 : 0 < m := by omega
    have hin' := hin m hm1 (by omega) hml
    have htk : r.net.rest.take g = (raw C s (rest.take m)).1 := by
      by_cases hge : g ≤ rest.length
      · have : m = g := by omega
        subst this
        rw [hin']
        exact List.take_left' (hlenraw m hml)
      · have hmr : m = rest.length := by omega
        rw [hin', hmr, hend, List.append_nil]
        exact List.take_of_length_le (by rw [hlenraw _ (Nat.le_refl _)]; omega)
    have hdr : r.net.rest.drop g = tl m := by
      by_cases hge : g ≤ rest.length
      · have : m = g := by omega
        subst this
        rw [hin']
        exact List.drop_left' (hlenraw m hml)
      · have hmr : m = rest.length := by omega
        rw [hin', hmr, hend, List.append_nil]
        exact List.drop_of_length_le (by rw [hlenraw _ (Nat.le_refl _)]; omega)
    have hne : ¬(r.net.rest.take g = []) := by
      intro hc
      have := congrArg List.length hc
      rw [htk, hlenraw m hml, List.length_nil] at this; omega
    have hlen : (r.net.rest.take g).length = m := by rw [htk, hlenraw m hml]
    simp only [hne, if_false, hlen, if_neg (show ¬((m : Int) ≤ 0) by omega)]
    refine ⟨m, EncR.mk (EncSt.mk r.st.iv (r.st.done ++ r.net.rest.take g) (r.st.total + m))
      (RNet.mk (r.net.rest.drop g) (r.net.k + 1) []) eOK, ?_, ?_, ?_, hml, by omega, ?_, ?_, ?_⟩
    · rw [htk]
      have : encBytes C.dec r.st.iv r.st.done.length (raw C s (rest.take m)).1 = rest.take m := by
        rw [hst]; exact encBytes_dec hC.inv _ _ _
      rw [this]
    · rw [hst, htk]
      simp only [raw, List.length_take]
      congr 2; omega
    · rw [if_neg hr]; exact hdr
    · exact ⟨fun h => by omega, fun h => absurd h hr⟩
    · intro hf
      rw [hf] at hg; simp only [if_true] at hg; omega
    · rw [if_neg hr]

theorem wire_split (s : WSt) (rest : Bytes) (m : Nat) :
    (wire C ivs T I s rest).1
      = (wire C ivs T I s (rest.take m)).1 ++ (wire C ivs T I (wire C ivs T I s (rest.take m)).2 (rest.drop m)).1 := by
  have := wire_append (C := C) (ivs := ivs) (T := T) (I := I) s (rest.take m) (rest.drop m)
  rw [List.take_append_drop] at this
  exact congrArg Prod.fst this

/-- What a read does: `m` bytes of `rest` are delivered, the reader stays in step. -/
structure ReadOK (C : Cipher) (ivs : Nat → Bytes) (T I : Int) (s : WSt) (rest : Bytes) (n : Int) (full : Bool)
    (m : Nat) (r' : EncR) : Prop where
  sync : InSync C ivs T I r' (wire C ivs T I s (rest.take m)).2 (rest.drop m)
  le : m ≤ rest.length
  len : (m : Int) ≤ n
  zero : m = 0 ↔ rest = []
  full : full = true → (m : Int) = min n rest.length
  err : r'.err = (if rest = [] then eSOCKET_READ_ERROR else eOK)

/-- A read of up to `n` bytes with no tag in front of any of them. -/
theorem readAndDecrypt_sync (hC : CipherOK C ivs) (frag : Nat → Nat) {r : EncR} {s : WSt} {rest : Bytes}
    (h : InSync C ivs T I r s rest) {n : Int} (hn : 0 < n) (full : Bool)
    (hno : ∀ i : Nat, (i : Int) < n → ¬TagAt T (s.st.total + i)) :
    ∃ (m : Nat) (r' : EncR),
      readAndDecrypt C (fun k => some (frag k)) n full r = .ok (m, rest.take m, r')
      ∧ ReadOK C ivs T I s rest n full m r' := by
  have hw : ∀ m : Nat, (m : Int) ≤ n → wire C ivs T I s (rest.take m) = raw C s (rest.take m) := by
    intro m hm
    apply wire_raw
    intro i hi
    rw [List.length_take] at hi
    exact hno i (by omega)
  obtain ⟨m, r', he, hs, hr, h1, h2, h3, h4, h5⟩ := readAndDecrypt_core hC frag h.st hn full
    (fun m => (wire C ivs T I (wire C ivs T I s (rest.take m)).2 (rest.drop m)).1)
    (fun m _ hm _ => by rw [h.inp, wire_split s rest m, hw m hm])
    (by simp [wire]) (fun hnil => by rw [h.inp, hnil]; rfl)
  refine ⟨m, r', he, ⟨?_, ?_, ?_⟩, h1, h2, h3, h4, h5⟩
  · rw [hs, hw m h2]
  · rw [hr]
    by_cases hn : rest = []
    · rw [if_pos hn, hn]; simp [wire]
    · rw [if_neg hn]
  · rw [wire_total]; have := h.nonneg; omega

/-- A full read of the next `kTagLen` bytes. -/
theorem readInternal_exact (frag : Nat → Nat) (r : EncR) (a b : Bytes) (hr : r.net.rest = a ++ b)
    (ha : a.length = kTagLen) :
    readInternal (fun k => some (frag k)) kTagLen true r
      = ((kTagLen : Int), a, { r with err := eOK, net := { rest := b, k := r.net.k + 1 } }) := by
  have hk : kTagLen = 16 := rfl
  have ht : r.net.rest.take kTagLen = a := by rw [hr, ← ha]; exact List.take_left
  have hd : r.net.rest.drop kTagLen = b := by rw [hr, ← ha]; exact List.drop_left
  have hne : ¬(a = []) := by intro hc; rw [hc] at ha; simp at ha; omega
  unfold readInternal
  simp only [if_true, Int.toNat_natCast, ht, hd, if_neg hne, ha]

/-- Reading a tag (and a vector) in front of more data. -/
theorem readTagAndIv_sync (hC : CipherOK C ivs) (frag : Nat → Nat) {r : EncR} {s : WSt} {rest : Bytes}
    (h : InSync C ivs T I r s rest) (htag : TagAt T s.st.total) (hne : rest ≠ []) :
    ∃ r', readTagAndIv C (fun k => some (frag k)) T I r = (true, r')
      ∧ r'.st = (preamble C ivs T I s).2.st
      ∧ (wire C ivs T I s rest).1 = (preamble C ivs T I s).1 ++ r'.net.rest ∧ r'.err = eOK := by
  have hk : kTagLen = 16 := rfl
  obtain ⟨x, xs, rfl⟩ := List.exists_cons_of_ne_nil hne
  have hinp := h.inp
  simp only [wire] at hinp
  generalize hrest : encByte C x (preamble C ivs T I s).2 ::
    (wire C ivs T I (afterByte C x (preamble C ivs T I s).2) xs).1 = tl at hinp
  have hgoal : (wire C ivs T I s (x :: xs)).1 = (preamble C ivs T I s).1 ++ tl := by simp only [wire, hrest]
  have htne : ∀ iv d, C.tag iv d ≠ [] := by
    intro iv d hc; have := hC.tagLen iv d; rw [hc] at this; simp at this; omega
  have hst := h.st
  by_cases hch : I ≠ 0 ∧ I < s.st.done.length + T
  · have hpre : preamble C ivs T I s = (C.tag s.st.iv s.st.done ++ ivs s.nextIv, ⟨{ s.st with iv := ivs s.nextIv, done := [] }, s.nextIv + 1⟩) := by
      unfold preamble; rw [if_pos htag, if_pos hch]
    rw [hpre] at hinp hgoal ⊢
    have e1 := readInternal_exact frag r (C.tag s.st.iv s.st.done) (ivs s.nextIv ++ tl)
      (by rw [hinp, List.append_assoc]) (hC.tagLen _ _)
    have e2 := readInternal_exact frag { r with err := eOK, net := { rest := ivs s.nextIv ++ tl, k := r.net.k + 1 } }
      (ivs s.nextIv) tl rfl (hC.ivLen _)
    refine ⟨{ st := { r.st with iv := ivs s.nextIv, done := [] }, err := eOK, net := { rest := tl, k := r.net.k + 1 + 1 } }, ?_, ?_, ?_, rfl⟩
    · have et : readEncryptionTag (fun k => some (frag k)) r = (C.tag s.st.iv s.st.done,
          { r with err := eOK, net := { rest := ivs s.nextIv ++ tl, k := r.net.k + 1 } }) := by
        unfold readEncryptionTag; rw [e1]; simp
      unfold readTagAndIv
      rw [et]
      simp only []
      rw [if_neg (htne _ _), if_neg (by rw [hst]; simp)]
      have ei : changeDecryptionIv C (fun k => some (frag k)) T I (C.tag s.st.iv s.st.done)
          { r with err := eOK, net := { rest := ivs s.nextIv ++ tl, k := r.net.k + 1 } }
          = (true, { st := { r.st with iv := ivs s.nextIv, done := [] }, err := eOK, net := { rest := tl, k := r.net.k + 1 + 1 } }) := by
        unfold changeDecryptionIv
        rw [if_neg hch.1, if_neg (by simp only [hst]; omega), e2]
        simp only []
        rw [if_neg (by simp), if_neg (by rw [hst]; simp)]
      rw [ei]; simp
    · simp only [hst]
    · exact hgoal
  · have hpre : preamble C ivs T I s = (C.tag s.st.iv s.st.done, s) := by
      unfold preamble; rw [if_pos htag, if_neg hch]
    rw [hpre] at hinp hgoal ⊢
    have e1 := readInternal_exact frag r (C.tag s.st.iv s.st.done) tl hinp (hC.tagLen _ _)
    refine ⟨{ r with err := eOK, net := { rest := tl, k := r.net.k + 1 } }, ?_, hst, hgoal, rfl⟩
    have et : readEncryptionTag (fun k => some (frag k)) r = (C.tag s.st.iv s.st.done,
        { r with err := eOK, net := { rest := tl, k := r.net.k + 1 } }) := by
      unfold readEncryptionTag; rw [e1]; simp
    unfold readTagAndIv
    rw [et]
    simp only []
    rw [if_neg (htne _ _), if_neg (by rw [hst]; simp)]
    have ei : changeDecryptionIv C (fun k => some (frag k)) T I (C.tag s.st.iv s.st.done)
        { r with err := eOK, net := { rest := tl, k := r.net.k + 1 } }
        = (true, { r with err := eOK, net := { rest := tl, k := r.net.k + 1 } }) := by
      unfold changeDecryptionIv
      by_cases h0 : I = 0
      · rw [if_pos h0]
      · rw [if_neg h0, if_pos (by simp only [hst]; omega)]
    rw [ei]; simp

/-- Reading from a tag on, with more data behind it. -/
theorem readFromTag_sync (hC : CipherOK C ivs) (frag : Nat → Nat) {r : EncR} {s : WSt} {rest : Bytes}
    (h : InSync C ivs T I r s rest) (htag : TagAt T s.st.total) (hne : rest ≠ []) {n : Int} (got : Bytes)
    (hn : 0 < n - got.length) (hnT : n - got.length ≤ T) (full : Bool) :
    ∃ (m : Nat) (r' : EncR),
      readFromTag C (fun k => some (frag k)) T I n full got r = .ok (got.length + m, got ++ rest.take m, r')
      ∧ ReadOK C ivs T I s rest (n - got.length) full m r' ∧ m ≠ 0 := by
  obtain ⟨r1, e1, hs1, hw1, _⟩ := readTagAndIv_sync hC frag h htag hne
  unfold readFromTag
  rw [if_neg (by rw [h.st]; simpa using htag.2.2), e1]
  simp only [Bool.true_eq_false, if_false]
  have hw : ∀ m : Nat, 0 < m → (m : Int) ≤ n - got.length → wire C ivs T I s (rest.take m)
      = ((preamble C ivs T I s).1 ++ (raw C (preamble C ivs T I s).2 (rest.take m)).1,
          (raw C (preamble C ivs T I s).2 (rest.take m)).2) := by
    intro m hm0 hm
    apply wire_tag_raw
    · intro hc
      have := congrArg List.length hc
      rw [List.length_take, List.length_nil] at this
      have : 0 < rest.length := List.length_pos_iff.2 hne
      omega
    · intro i hi hi2
      rw [List.length_take] at hi2
      exact tag_gap htag (by omega) (by omega)
  obtain ⟨m, r', he, hs, hr, h1, h2, h3, h4, h5⟩ := readAndDecrypt_core hC frag (rest := rest) hs1 hn full
    (fun m => (wire C ivs T I (wire C ivs T I s (rest.take m)).2 (rest.drop m)).1)
    (fun m hm0 hm _ => by
      have := wire_split (C := C) (ivs := ivs) (T := T) (I := I) s rest m
      rw [hw1, hw m hm0 hm] at this
      simp only [List.append_assoc] at this
      have := List.append_cancel_left this
      rw [this, hw m hm0 hm])
    (by simp [wire]) (fun hnil => absurd hnil hne)
  have hm0 : m ≠ 0 := fun hc => hne (h3.1 hc)
  refine ⟨m, r', ?_, ⟨⟨?_, ?_, ?_⟩, h1, h2, h3, h4, h5⟩, hm0⟩
  · unfold readRest
    rw [he]
    simp only []
    rw [if_neg (by omega)]
  · rw [hs, hw m (by omega) h2]
  · rw [hr, if_neg hne]
  · rw [wire_total]; have := h.nonneg; omega

/-- The plaintext to come does not end where a tag is due, or reaches as far as
the read. -/
def Enough (T : Int) (s : WSt) (rest : Bytes) (n : Int) : Prop :=
  n ≤ rest.length ∨ ¬TagAt T (s.st.total + rest.length)

theorem readAndDecryptWithTag_sync (hC : CipherOK C ivs) (frag : Nat → Nat) (hT : 0 < T) {r : EncR} {s : WSt}
    {rest : Bytes} (h : InSync C ivs T I r s rest) {n : Int} (hn : 0 < n) (hnT : n ≤ T) (full : Bool)
    (henough : Enough T s rest n) :
    ∃ (m : Nat) (r' : EncR),
      readAndDecryptWithTag C (fun k => some (frag k)) T I n full r = .ok (m, rest.take m, r')
      ∧ ReadOK C ivs T I s rest n full m r' := by
  obtain ⟨g0, gt, gn⟩ := tagOffset_spec hT h.nonneg
  unfold readAndDecryptWithTag
  rw [if_neg (by omega), if_neg (by omega), h.st]
  generalize hoff : computeNextTagOffset s.st.total T = off at *
  by_cases hlt : off < n
  · rw [if_pos hlt]
    by_cases hpos : off > 0
    · rw [if_pos hpos]
      obtain ⟨m, r1, he, hok⟩ := readAndDecrypt_sync hC frag h hpos full (fun i hi => gn i (by omega) hi)
      rw [he]
      simp only []
      by_cases hm0 : (m : Int) ≤ 0
      · rw [if_pos hm0]
        have hz : m = 0 := by omega
        have hr : rest = [] := hok.zero.1 hz
        subst hz
        refine ⟨0, r1, by simp, hok.sync, hok.le, by omega, hok.zero, ?_, hok.err⟩
        intro _; rw [hr]; simp; omega
      · rw [if_neg hm0]
        have hrne : rest ≠ [] := fun hc => hm0 (by have := hok.zero.2 hc; omega)
        by_cases hmo : (m : Int) < off
        · rw [if_pos hmo]
          refine ⟨m, r1, rfl, hok.sync, hok.le, by omega, hok.zero, ?_, hok.err⟩
          intro hf
          have := hok.full hf
          omega
        · rw [if_neg hmo]
          have hmoff : (m : Int) = off := by have := hok.len; omega
          have hlen : rest.length ≠ m := by
            intro hc
            rcases henough with h1 | h1
            · omega
            · apply h1; rw [hc, hmoff]; exact gt
          have hle := hok.le
          have hlt2 : m < rest.length := by omega
          have hdne : rest.drop m ≠ [] := by
            intro hc
            have := congrArg List.length hc
            rw [List.length_drop, List.length_nil] at this; omega
          have htl : (rest.take m).length = m := by rw [List.length_take]; omega
          have htag : TagAt T (wire C ivs T I s (rest.take m)).2.st.total := by
            rw [wire_total, htl, hmoff]; exact gt
          obtain ⟨m2, r2, he2, hok2, hm2⟩ := readFromTag_sync hC frag hok.sync htag hdne (n := n) (rest.take m)
            (by rw [htl]; omega) (by rw [htl]; omega) full
          refine ⟨m + m2, r2, ?_, ⟨?_, ?_, ?_⟩, ?_, ?_, ?_, ?_, ?_⟩
          · rw [he2, htl]
            have : rest.take m ++ (rest.drop m).take m2 = rest.take (m + m2) := by
              rw [List.take_add]
            rw [this]; simp
          · have := hok2.sync.st
            rw [List.take_add, wire_append]; exact this
          · have := hok2.sync.inp
            rw [List.take_add, wire_append, ← List.drop_drop]; exact this
          · rw [wire_total]; have := h.nonneg; omega
          · have := hok2.le; rw [List.length_drop] at this; omega
          · have := hok2.len; rw [htl] at this; omega
          · exact ⟨fun hc => by omega, fun hc => absurd hc hrne⟩
          · intro hf
            have := hok2.full hf
            rw [htl, List.length_drop] at this; omega
          · rw [hok2.err, if_neg hdne, if_neg hrne]
    · rw [if_neg hpos]
      have hz : off = 0 := by omega
      have htag : TagAt T s.st.total := by rw [hz] at gt; simpa using gt
      have hrne : rest ≠ [] := by
        intro hc
        subst hc
        rcases henough with h1 | h1
        · simp at h1; omega
        · apply h1; simpa using htag
      obtain ⟨m2, r2, he2, hok2, hm2⟩ := readFromTag_sync hC frag h htag hrne (n := n) []
        (by simpa using hn) (by simpa using hnT) full
      simp only [List.length_nil, Int.natCast_zero, Int.sub_zero] at hok2
      refine ⟨m2, r2, by rw [he2]; simp, hok2⟩
  · rw [if_neg hlt]
    obtain ⟨m, r1, he, hok⟩ := readAndDecrypt_sync hC frag h hn full (fun i hi => gn i (by omega) (by omega))
    refine ⟨m, r1, ?_, hok⟩
    unfold readRest
    simp only [List.length_nil, Int.natCast_zero, Int.sub_zero, he]
    by_cases hm0 : (m : Int) ≤ 0
    · rw [if_pos hm0, if_neg (by omega)]
      have : m = 0 := by omega
      subst this; simp
    · rw [if_neg hm0]; simp

/-- A call of `read`: `m` bytes of `rest` are delivered, the reader stays in step. -/
structure CallOK (C : Cipher) (ivs : Nat → Bytes) (T I : Int) (s : WSt) (rest : Bytes) (n : Int) (full : Bool)
    (m : Nat) (r' : EncR) : Prop where
  sync : InSync C ivs T I r' (wire C ivs T I s (rest.take m)).2 (rest.drop m)
  le : m ≤ rest.length
  len : (m : Int) ≤ n
  zero : 0 < n → (m = 0 ↔ rest = [])
  full : full = true → (m : Int) = min n rest.length
  err : r'.err = eOK ∨ (rest.drop m = [] ∧ r'.err = eSOCKET_READ_ERROR)

/-- Two reads in a row. -/
theorem CallOK.add {s : WSt} {rest : Bytes} {n : Int} {full : Bool} {m m2 : Nat} {r1 r2 : EncR} {k : Int}
    (h1 : ReadOK C ivs T I s rest k full m r1) (hm : (m : Int) ≠ 0)
    (h2 : CallOK C ivs T I (wire C ivs T I s (rest.take m)).2 (rest.drop m) (n - m) full m2 r2) (hk : (m : Int) = k) :
    CallOK C ivs T I s rest n full (m + m2) r2 := by
  have hle := h1.le
  have hrne : rest ≠ [] := fun hc => hm (by have := h1.zero.2 hc; omega)
  refine ⟨⟨?_, ?_, ?_⟩, ?_, ?_, ?_, ?_, ?_⟩
  · have := h2.sync.st
    rw [List.take_add, wire_append]; exact this
  · have := h2.sync.inp
    rw [List.take_add, wire_append, ← List.drop_drop]; exact this
  · have := h2.sync.nonneg
    rw [List.take_add, wire_append]; exact this
  · have := h2.le; rw [List.length_drop] at this; omega
  · have := h2.len; omega
  · exact fun _ => ⟨fun hc => by omega, fun hc => absurd hc hrne⟩
  · intro hf
    have e2 := h2.full hf
    rw [List.length_drop] at e2; omega
  · rw [← List.drop_drop]; exact h2.err

theorem readTagLoop_sync (hC : CipherOK C ivs) (frag : Nat → Nat) (hT : 0 < T) (n : Int) (full : Bool) :
    ∀ (fuel : Nat) (got : Bytes) (r : EncR) (s : WSt) (rest : Bytes), InSync C ivs T I r s rest → r.err = eOK →
    (n - got.length).toNat < fuel → (got.length : Int) ≤ n → Enough T s rest (n - got.length) →
    ∃ (m : Nat) (r' : EncR),
      readTagLoop C (fun k => some (frag k)) T I n full fuel got r = .ok (got.length + m, got ++ rest.take m, r')
      ∧ CallOK C ivs T I s rest (n - got.length) full m r' := by
  intro fuel
  induction fuel with
  | zero => intro got r s rest _ _ h; omega
  | succ fuel ih =>
    intro got r s rest h herr hf hle henough
    unfold readTagLoop
    by_cases hlt : (got.length : Int) < n
    · rw [if_pos hlt]
      generalize hk : min (n - (got.length : Int)) T = k
      have hk0 : 0 < k := by omega
      have hkT : k ≤ T := by omega
      obtain ⟨m, r1, he, hok⟩ := readAndDecryptWithTag_sync hC frag hT h hk0 hkT full (by
        rcases henough with h1 | h1
        · exact Or.inl (by omega)
        · exact Or.inr h1)
      rw [he]
      simp only []
      have hmle := hok.le
      have hmk := hok.len
      by_cases hm0 : (m : Int) ≤ 0
      · rw [if_pos hm0]
        have hz : m = 0 := by omega
        have hr : rest = [] := hok.zero.1 hz
        subst hz
        refine ⟨0, r1, ?_, hok.sync, by omega, by omega, fun _ => hok.zero, ?_, ?_⟩
        · by_cases hg : (got.length : Int) > 0
          · rw [if_pos hg]; simp
          · rw [if_neg hg]
            have : got = [] := List.length_eq_zero_iff.1 (by omega)
            subst this; simp
        · intro _; rw [hr]; simp; omega
        · right; rw [hok.err, if_pos hr, hr]; exact ⟨rfl, rfl⟩
      · rw [if_neg hm0]
        have hrne : rest ≠ [] := fun hc => hm0 (by have := hok.zero.2 hc; omega)
        have hone : r1.err = eOK := by rw [hok.err, if_neg hrne]
        by_cases hmk2 : (m : Int) < k
        · rw [if_pos hmk2]
          refine ⟨m, r1, rfl, hok.sync, hmle, by omega, fun _ => hok.zero, ?_, Or.inl hone⟩
          intro hfu
          have := hok.full hfu
          omega
        · rw [if_neg hmk2]
          have htl : (rest.take m).length = m := by rw [List.length_take]; omega
          obtain ⟨m2, r2, he2, hok2⟩ := ih (got ++ rest.take m) r1 _ _ hok.sync hone
            (by rw [List.length_append, htl]; omega) (by rw [List.length_append, htl]; omega)
            (by
              rw [List.length_append, htl]
              rcases henough with h1 | h1
              · left; rw [List.length_drop]; omega
              · right
                rw [wire_total, htl, List.length_drop]
                have : s.st.total + (m : Int) + ((rest.length - m : Nat) : Int) = s.st.total + rest.length := by omega
                rw [this]; exact h1)
          refine ⟨m + m2, r2, ?_, CallOK.add hok (by omega) (by
            have e : n - (got.length : Int) - (m : Int) = n - ((got ++ rest.take m).length : Int) := by
              rw [List.length_append, htl]; omega
            rw [e]; exact hok2) (by omega)⟩
          rw [he2, List.length_append, htl, List.append_assoc, List.take_add]
          congr 2
          omega
    · rw [if_neg hlt]
      have : n - (got.length : Int) = 0 := by omega
      refine ⟨0, r, by simp, ?_, by omega, by omega, fun hc => by omega, fun _ => by omega, Or.inl herr⟩
      simpa [wire] using h

theorem encRead_sync (hC : CipherOK C ivs) (frag : Nat → Nat) (hT : 0 ≤ T) {r : EncR} {s : WSt} {rest : Bytes}
    (h : InSync C ivs T I r s rest) (herr : r.err = eOK) {n : Int} (hn : 0 < n) (full : Bool)
    (henough : Enough T s rest n) :
    ∃ (m : Nat) (r' : EncR),
      encRead C (fun k => some (frag k)) T I n full r = .ok (m, rest.take m, r')
      ∧ CallOK C ivs T I s rest n full m r' := by
  have hr : ({ r with err := eOK } : EncR) = r := by rw [← herr]
  unfold encRead
  rw [if_neg (by omega), if_neg (by simp [herr]), hr]
  by_cases hT0 : T ≤ 0
  · rw [if_pos hT0]
    obtain ⟨m, r', he, hok⟩ := readAndDecrypt_sync hC frag h hn full (fun i _ hc => by have := hc.1; omega)
    refine ⟨m, r', he, hok.sync, hok.le, hok.len, fun _ => hok.zero, hok.full, ?_⟩
    by_cases hrn : rest = []
    · right; rw [hok.err, if_pos hrn, hrn]; exact ⟨List.drop_nil, rfl⟩
    · left; rw [hok.err, if_neg hrn]
  · rw [if_neg hT0]
    obtain ⟨m, r', he, hok⟩ := readTagLoop_sync hC frag (by omega) n full (n.toNat + 1) [] r s rest h herr
      (by simp) (by simp; omega) (by simpa using henough)
    refine ⟨m, r', by rw [he]; simp, by simpa using hok⟩

/-- Total of the sizes asked for. -/
def asked (l : List (Int × Bool)) : Int := (l.map (fun p => p.1)).sum

theorem asked_nonneg {l : List (Int × Bool)} (h : ∀ p ∈ l, 0 < p.1) : 0 ≤ asked l := by
  induction l with
  | nil => simp [asked]
  | cons p l ih =>
    have h1 := h p (by simp)
    have h2 := ih (fun q hq => h q (by simp [hq]))
    simp only [asked, List.map_cons, List.sum_cons] at *; omega

/-- What a sequence of reads delivers. -/
theorem encReads_sync (hC : CipherOK C ivs) (frag : Nat → Nat) (hT : 0 ≤ T) :
    ∀ (l : List (Int × Bool)) (r : EncR) (s : WSt) (rest : Bytes), InSync C ivs T I r s rest →
    (r.err = eOK ∨ (rest = [] ∧ r.err = eSOCKET_READ_ERROR)) → (∀ p ∈ l, 0 < p.1) →
    (asked l ≤ rest.length ∨ ¬TagAt T (s.st.total + rest.length)) →
    ∃ (rets : List Int) (m : Nat) (r' : EncR),
      encReads C (fun k => some (frag k)) T I l r = .ok (rets, rest.take m, r')
      ∧ InSync C ivs T I r' (wire C ivs T I s (rest.take m)).2 (rest.drop m) ∧ m ≤ rest.length
      ∧ (∀ ret ∈ rets, ret ≤ 0 → m = rest.length)
      ∧ ((∀ p ∈ l, p.2 = true) → (m : Int) = min (asked l) rest.length) := by
  intro l
  induction l with
  | nil =>
    intro r s rest h _ _ _
    exact ⟨[], 0, r, by simp [encReads], by simpa [wire] using h, by omega, by simp, fun _ => by simp [asked]; omega⟩
  | cons p l ih =>
    intro r s rest h herr hpos hen
    obtain ⟨n, full⟩ := p
    have hn : 0 < n := hpos (n, full) (by simp)
    have hlpos := asked_nonneg (l := l) (fun q hq => hpos q (by simp [hq]))
    have hask : asked ((n, full) :: l) = n + asked l := by simp [asked]
    unfold encReads
    rcases herr with herr | ⟨hnil, herr⟩
    · obtain ⟨m, r1, he, hok⟩ := encRead_sync hC frag hT h herr hn full (by
        rcases hen with h1 | h1
        · left; omega
        · right; exact h1)
      rw [he]
      simp only []
      have hle := hok.le
      have htl : (rest.take m).length = m := by rw [List.length_take]; omega
      obtain ⟨rets, m2, r2, he2, hs2, hm2, hz2, hf2⟩ := ih r1 _ _ hok.sync
        (hok.err) (fun q hq => hpos q (by simp [hq])) (by
          rcases hen with h1 | h1
          · left; rw [List.length_drop]; have := hok.len; omega
          · right
            rw [wire_total, htl, List.length_drop]
            have : s.st.total + (m : Int) + ((rest.length - m : Nat) : Int) = s.st.total + rest.length := by omega
            rw [this]; exact h1)
      rw [he2]
      simp only []
      rw [List.length_drop] at hm2 hz2 hf2
      refine ⟨(m : Int) :: rets, m + m2, r2, ?_, ?_, by omega, ?_, ?_⟩
      · rw [List.take_add]
      · rw [List.take_add, wire_append, ← List.drop_drop]; exact hs2
      · intro ret hret hle0
        rcases List.mem_cons.1 hret with h1 | h1
        · have hm0 : m = 0 := by omega
          have := (hok.zero hn).1 hm0
          rw [this] at hm2 ⊢
          simp at hm2 ⊢; omega
        · have := hz2 ret h1 hle0; omega
      · intro hall
        have h1 := hok.full (hall (n, full) (by simp))
        have h2 := hf2 (fun q hq => hall q (by simp [hq]))
        rw [hask]; omega
    · subst hnil
      have he : encRead C (fun k => some (frag k)) T I n full r = .ok (-1, [], r) := by
        unfold encRead
        rw [if_neg (by omega), if_pos (by rw [herr]; decide)]
      rw [he]
      simp only []
      obtain ⟨rets, m2, r2, he2, hs2, hm2, hz2, hf2⟩ := ih r s [] h (Or.inr ⟨rfl, herr⟩)
        (fun q hq => hpos q (by simp [hq])) (by
          rcases hen with h1 | h1
          · left; simp at h1 ⊢; omega
          · right; exact h1)
      rw [he2]
      simp only []
      refine ⟨-1 :: rets, m2, r2, by simp, hs2, hm2, ?_, ?_⟩
      · intro ret _ _; simp at hm2 ⊢; exact hm2
      · intro _; simp at hm2 ⊢; omega


end

/-! ### The property -/

/-- A fresh writer and a fresh reader after the exchange of the encryption
settings. -/
def EncW.fresh (iv : Bytes) : EncW := { st := { iv := iv } }
def EncR.fresh (iv inp : Bytes) : EncR := { st := { iv := iv }, net := { rest := inp } }

/-- C35: whatever the writes, the bytes on the socket depend only on the plaintext. -/
theorem C35_writes_independent (C : Cipher) (ivs : Nat → Bytes) (iv : Bytes) (T I : Int) (hT : 0 ≤ T)
    (l₁ l₂ : List Bytes) (h₁ : ∀ b ∈ l₁, b ≠ []) (h₂ : ∀ b ∈ l₂, b ≠ []) (h : l₁.flatten = l₂.flatten) :
    ∃ w, encWrites C ivs T I l₁ (.fresh iv) = .ok w ∧ encWrites C ivs T I l₂ (.fresh iv) = .ok w
      ∧ w.st.total = l₁.flatten.length := by
  refine ⟨_, encWrites_wire hT l₁ _ h₁ (by simp [EncW.fresh]), ?_, ?_⟩
  · rw [encWrites_wire hT l₂ _ h₂ (by simp [EncW.fresh]), h]
  · rw [put_total]; simp [EncW.fresh]

/-- C35, for reads that do not run into a tag position at the end of what was
written (the missing case is `C35_violated_boundary`) and without timeouts (see
`C35_violated_timeout`): for every tag interval and vector change interval, every
way to split the writes, every way to split the reads, every fragmentation by the
network: the writes succeed, what the reads deliver is a prefix of the plaintext,
a read delivers nothing only after the whole plaintext, reads that ask for full
buffers get all there is, and once everything was read the final tag is accepted. -/
theorem C35_stream_partial (C : Cipher) (ivs : Nat → Bytes) (hC : CipherOK C ivs) (iv : Bytes) (T I : Int) (hT : 0 ≤ T)
    (writes : List Bytes) (hw : ∀ b ∈ writes, b ≠ []) :
    ∃ w, encWrites C ivs T I writes (.fresh iv) = .ok w ∧
      ∀ (frag : Nat → Nat) (reads : List (Int × Bool)), (∀ p ∈ reads, 0 < p.1) →
        (asked reads ≤ writes.flatten.length ∨ ¬TagAt T writes.flatten.length) →
        ∃ rets m r', encReads C (fun k => some (frag k)) T I reads (.fresh iv w.out)
            = .ok (rets, writes.flatten.take m, r')
          ∧ m ≤ writes.flatten.length
          ∧ (∀ ret ∈ rets, ret ≤ 0 → m = writes.flatten.length)
          ∧ ((∀ p ∈ reads, p.2 = true) → (m : Int) = min (asked reads) writes.flatten.length)
          ∧ (m = writes.flatten.length → (finalizeReads C (fun k => some (frag k))
              { r' with net := { r'.net with rest := r'.net.rest ++ (finalizeWrites C w).out.drop w.out.length } }).1 = true) := by
  refine ⟨_, encWrites_wire hT writes _ hw (by simp [EncW.fresh]), ?_⟩
  intro frag reads hpos hen
  have hs : InSync C ivs T I (.fresh iv (wire C ivs T I ⟨{ iv := iv }, 0⟩ writes.flatten).1) ⟨{ iv := iv }, 0⟩
      writes.flatten := ⟨rfl, rfl, by simp⟩
  obtain ⟨rets, m, r', he, hs', hm, hz, hf⟩ := encReads_sync hC frag hT reads _ _ _ hs (Or.inl rfl) hpos
    (by simpa using hen)
  refine ⟨rets, m, r', ?_, hm, hz, hf, ?_⟩
  · simpa [EncW.put, EncW.fresh, EncW.ref] using he
  · intro hall
    subst hall
    have hst := hs'.st
    have hrest := hs'.inp
    rw [List.take_length] at hst hrest
    rw [List.drop_length] at hrest
    simp only [wire] at hrest
    generalize hwp : (EncW.fresh iv).put (wire C ivs T I (EncW.fresh iv).ref writes.flatten) = w
    have hwst : w.st = r'.st := by rw [← hwp]; exact hst.symm
    have hdrop : (finalizeWrites C w).out.drop w.out.length = C.tag r'.st.iv r'.st.done := by
      simp only [finalizeWrites, hwst]; exact List.drop_left
    rw [hdrop, hrest]
    have hk : kTagLen = 16 := rfl
    have htne : C.tag r'.st.iv r'.st.done ≠ [] := by
      intro hc; have := hC.tagLen r'.st.iv r'.st.done; rw [hc] at this; simp at this; omega
    have e1 := readInternal_exact frag
      { r' with net := { r'.net with rest := [] ++ C.tag r'.st.iv r'.st.done } } (C.tag r'.st.iv r'.st.done) []
      (by simp) (hC.tagLen _ _)
    unfold finalizeReads readEncryptionTag
    rw [e1]
    simp [htne]

/-! ### A concrete cipher -/

/-- Exclusive or with the position and the first byte of the vector; the tag sums up. -/
def toyCipher : Cipher where
  enc iv p b := b ^^^ (UInt8.ofNat p + iv.headD 0)
  dec iv p b := b ^^^ (UInt8.ofNat p + iv.headD 0)
  tag iv d := List.replicate 16 (d.foldl (fun a b => a * 3 + b) (iv.headD 0))

def toyIvs (k : Nat) : Bytes := List.replicate 16 (UInt8.ofNat (7 * k + 1))

theorem toy_ok : CipherOK toyCipher toyIvs where
  inv iv p b := by simp [toyCipher, UInt8.xor_assoc]
  tagLen iv d := by simp [toyCipher, kTagLen]
  ivLen k := by simp [toyIvs, kTagLen]

/-- Case: 10 bytes in writes of 3, 6 and 1 byte, a tag every 4 bytes, a new vector
every 8 bytes, reads of 5, 1 and 9 bytes with two bytes per network read. -/
example : ((match encWrites toyCipher toyIvs 4 4 [[1, 2, 3], [4, 5, 6, 7, 8, 9], [10]] (.fresh [9]) with
    | .ok w => (match encReads toyCipher (fun _ => some 1) 4 4 [(5, false), (1, false), (9, true)] (.fresh [9] w.out) with
      | .ok (rets, data, _) => some (w.out.length, rets, data)
      | .error _ => none)
    | .error _ => none)) = some (10 + 2 * 16 + 2 * 16, [2, 1, 7], [1, 2, 3, 4, 5, 6, 7, 8, 9, 10]) := by decide +kernel

/-! ### Disagreements -/

/-- C35 fails when the plaintext written so far ends at a tag position and the
reader offers a larger buffer: the tag is only written in front of the next data,
but the reader waits for it.  After 1 + 3 bytes with tags every 4 bytes, the second
read (of 8 bytes, partial reads allowed) has 3 bytes at hand, yet it waits for a tag
until the timeout, returns an error, and the connection is unusable: when the
writer goes on, reading still fails. -/
theorem C35_violated_boundary :
    ∃ (w w' : EncW) (r : EncR),
      encWrites toyCipher toyIvs 4 0 [[1], [2, 3, 4]] (.fresh [9]) = .ok w
      ∧ encWrite toyCipher toyIvs 4 0 [5, 6] w = .ok w'
      -- one byte, then three bytes of data that arrive, then silence
      ∧ encReads toyCipher (fun k => if k < 2 then some 100 else none) 4 0 [(1, false), (8, false)] (.fresh [9] w.out)
          = .ok ([1, -1], [1], r)
      -- the writer writes more, all of it arrives
      ∧ encReads toyCipher (fun _ => some 100) 4 0 [(1, false), (8, false)]
          { r with net := { r.net with rest := w'.out.drop w.out.length } }
          = .ok ([-1, -1], [], { r with net := { r.net with rest := w'.out.drop w.out.length } }) := by
  refine ⟨_, _, _, rfl, rfl, rfl, ?_⟩
  decide +kernel

/-- C35 fails after a timeout right after a tag, although a timeout is meant to be
retryable (readWithTimeout goes on after WDT_TIMEOUT, lines 313-318): the tag was
consumed, the next read takes the data for another tag. -/
theorem C35_violated_timeout :
    ∃ (w : EncW) (r : EncR),
      encWrites toyCipher toyIvs 4 0 [[1, 2, 3, 4, 5, 6]] (.fresh [9]) = .ok w
      ∧ encReads toyCipher (fun k => if k = 2 then none else some 100) 4 0 [(4, true), (2, true), (2, true)]
          (.fresh [9] w.out) = .ok ([4, -1, -1], [1, 2, 3, 4], r)
      ∧ r.err = eENCRYPTION_ERROR
      ∧ encReads toyCipher (fun _ => some 100) 4 0 [(4, true), (2, true)] (.fresh [9] w.out)
          = .ok ([4, 2], [1, 2, 3, 4, 5, 6], { st := w.st, net := { rest := [], k := 3 } }) := by
  refine ⟨_, _, rfl, rfl, rfl, ?_⟩
  decide +kernel


end Wdt
