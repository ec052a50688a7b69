import Verif.Lemmas.Protocol
import Verif.Model.ChunkExchange
import Mathlib.Tactic.ByContra
/-
C10, C11: the list of already received chunks sent when resuming a download.
-/
namespace Wdt

/-! ### Helper lemmas -/

theorem chunks_bytes_length (cs : List Interval) : (cs.flatMap chunkBytes).length ≤ 18 * cs.length := by
  induction cs with
  | nil => simp
  | cons c cs ih =>
    have l1 := nnBytes_length_le c.start
    have l2 := nnBytes_length_le c.stop
    simp only [List.flatMap_cons, List.length_append, List.length_cons, chunkBytes] at *
    omega

theorem fileChunksBytes_le_max (f : FileChunksInfo) (h : f.fileName.length < 2 ^ 35) :
    ((fileChunksBytes f).length : Int) ≤ maxEncodeLen f := by
  have l1 := nnBytes_length_le f.seqId
  have l2 := nnBytes_length_le f.fileSize
  have l3 := nnBytes_length_le f.chunks.length
  have l4 := chunks_bytes_length f.chunks
  have l5 := encodeVarU64Str_length_lt 5 f.fileName.length (by omega) (by omega) (by omega)
  unfold fileChunksBytes maxEncodeLen strBytes kMaxChunkEncodeLen
  simp only [List.length_append]
  omega

/-- The records of `l` that one message can carry, i.e. those whose upper bound
fits the buffer. -/
def sendable (off bufSize : Int) (l : List FileChunksInfo) : List FileChunksInfo :=
  l.filter fun f => decide (maxEncodeLen f + off ≤ bufSize)

theorem encodeListLoop_spec (oldOff bufSize : Int) (hB : bufSize ≤ int32Max) :
    ∀ (l : List FileChunksInfo) (n : Nat) (buf : Bytes) (off : Int), (∀ f ∈ l, f.WF) → 0 ≤ oldOff →
      oldOff ≤ off → off ≤ bufSize → bufSize ≤ buf.length →
      ∃ k, encodeListLoop oldOff bufSize l n buf off =
          .ok (n + k, splice buf off.toNat (((sendable oldOff bufSize l).take k).flatMap fileChunksBytes),
            off + (((sendable oldOff bufSize l).take k).flatMap fileChunksBytes).length) ∧
        off + (((sendable oldOff bufSize l).take k).flatMap fileChunksBytes).length ≤ bufSize ∧
        k ≤ (sendable oldOff bufSize l).length ∧
        (∀ f, (sendable oldOff bufSize l)[k]? = some f →
          bufSize ≤ maxEncodeLen f + off +
            (((sendable oldOff bufSize l).take k).flatMap fileChunksBytes).length) := by
  intro l
  induction l with
  | nil =>
    intro n buf off _ _ _ h _
    refine ⟨0, ?_, ?_, ?_, ?_⟩ <;> simp [encodeListLoop, sendable, splice_nil, h]
  | cons f l ih =>
    intro n buf off hwf h0 h1 h2 h3
    have hwf' : ∀ g ∈ l, g.WF := fun g hg => hwf g (List.mem_cons_of_mem _ hg)
    unfold encodeListLoop
    by_cases hbig : maxEncodeLen f + oldOff > bufSize
    · have e : sendable oldOff bufSize (f :: l) = sendable oldOff bufSize l := by
        unfold sendable
        rw [List.filter_cons_of_neg (by simp; omega)]
      rw [if_pos hbig, e]
      exact ih n buf off hwf' h0 h1 h2 h3
    · have e : sendable oldOff bufSize (f :: l) = f :: sendable oldOff bufSize l := by
        unfold sendable
        rw [List.filter_cons_of_pos (by simp; omega)]
      rw [if_neg hbig, e]
      by_cases hfull : maxEncodeLen f + off ≥ bufSize
      · rw [if_pos hfull]
        refine ⟨0, by simp [splice_nil], by simpa using h2, by simp, ?_⟩
        intro g hg
        simp only [List.getElem?_cons_zero, Option.some.injEq] at hg
        subst hg
        simp; omega
      · rw [if_neg hfull]
        have h32 : int32Max = 2147483647 := rfl
        have h64 : int64Max = 9223372036854775807 := rfl
        have hname : f.fileName.length < 2 ^ 35 := by
          have : maxEncodeLen f ≥ f.fileName.length := by
            unfold maxEncodeLen kMaxChunkEncodeLen; omega
          omega
        have hle := fileChunksBytes_le_max f hname
        have w := writes_encodeFileChunksInfo (max := bufSize) (by omega) (by omega) f
          (hwf f (by simp))
        have w' := (w buf off (by omega) h2 h3).1 (by omega)
        rw [w']
        have hsl := splice_length buf off.toNat (fileChunksBytes f) (by omega)
        obtain ⟨k, hk, hk1, hk2, hk3⟩ := ih (n + 1) (splice buf off.toNat (fileChunksBytes f))
          (off + (fileChunksBytes f).length) hwf' h0 (by omega) (by omega) (by omega)
        refine ⟨k + 1, ?_, ?_, ?_, ?_⟩
        · simp only
          rw [hk]
          simp only [List.take_succ_cons, List.flatMap_cons, List.length_append, Except.ok.injEq,
            Prod.mk.injEq]
          refine ⟨by omega, ?_, by omega⟩
          have e2 : (off + (fileChunksBytes f).length).toNat = off.toNat + (fileChunksBytes f).length := by
            omega
          rw [e2, splice_append]
          generalize hX : (((sendable oldOff bufSize l).take k).flatMap fileChunksBytes).length = X at *
          omega
        · simp only [List.take_succ_cons, List.flatMap_cons, List.length_append]
          omega
        · simp only [List.length_cons]; omega
        · intro g hg
          simp only [List.getElem?_cons_succ] at hg
          have := hk3 g hg
          simp only [List.take_succ_cons, List.flatMap_cons, List.length_append]
          omega

theorem seg_splice (buf : Bytes) (off : Int) (bs : Bytes) (h0 : 0 ≤ off)
    (h : off + bs.length ≤ buf.length) : seg (splice buf off.toNat bs) off (off + bs.length) = bs := by
  unfold seg splice
  have e : (off + (bs.length : Int)).toNat = off.toNat + bs.length := by omega
  have h1 : (buf.take off.toNat).length = off.toNat := by rw [List.length_take]; omega
  rw [e, List.drop_take, List.append_assoc, List.drop_append_of_le_length (by omega),
    List.drop_of_length_le (by omega)]
  simp

/-! ## C10 Chunk lists round-trip -/

/-- Encoding any list from any start index into a buffer succeeds; decoding the
produced bytes gives back exactly the first `n` records that can be sent, in
order, where `n` is the returned count; encoding stops only at the end of the
list or when the next record might not fit. -/
theorem C10_roundtrip (bufSize : Int) (hB : bufSize ≤ int32Max) (l : List FileChunksInfo)
    (hl : ∀ f ∈ l, f.WF) (start : Nat) (buf : Bytes) (off : Int) (h0 : 0 ≤ off) (h1 : off ≤ bufSize)
    (h2 : bufSize ≤ buf.length) :
    ∃ n buf' off', encodeFileChunksInfoList bufSize start l buf off = .ok (n, buf', off') ∧
      off' ≤ bufSize ∧ buf'.length = buf.length ∧
      decodeFileChunksInfoList buf' off off' =
        .ok (some (((l.drop start).filter fun f => decide (maxEncodeLen f + off ≤ bufSize)).take n),
          off') ∧
      (∀ f, ((l.drop start).filter fun f => decide (maxEncodeLen f + off ≤ bufSize))[n]? = some f →
          bufSize ≤ maxEncodeLen f + off') := by
  have hd : ∀ f ∈ l.drop start, f.WF := fun f hf => hl f (List.mem_of_mem_drop hf)
  obtain ⟨k, hk, hk1, hk2, hk3⟩ := encodeListLoop_spec off bufSize hB (l.drop start) 0 buf off hd h0
    (Int.le_refl _) h1 h2
  generalize hX : ((sendable off bufSize (l.drop start)).take k).flatMap fileChunksBytes = X at *
  have hsl := splice_length buf off.toNat X (by omega)
  refine ⟨k, splice buf off.toNat X, off + X.length, ?_, hk1, hsl, ?_, ?_⟩
  · unfold encodeFileChunksInfoList
    rw [hk, Nat.zero_add]
  · unfold decodeFileChunksInfoList
    rw [makeByteRange_ok _ _ _ h0 (by omega) (by omega), seg_splice buf off X h0 (by omega)]
    have := decodeListLoop_bytes ((sendable off bufSize (l.drop start)).take k)
      (fun f hf => hd f (List.mem_filter.1 (List.mem_of_mem_take hf)).1) X.length
    rw [hX] at this
    simp only
    rw [this (by omega)]
    rfl
  · intro f hf
    have := hk3 f hf
    omega

/-- A record whose upper bound is below the free space is never left out: at
least one record is encoded. -/
theorem C10_progress (bufSize : Int) (hB : bufSize ≤ int32Max) (l : List FileChunksInfo)
    (hl : ∀ f ∈ l, f.WF) (start : Nat) (buf : Bytes) (off : Int) (h0 : 0 ≤ off) (h1 : off ≤ bufSize)
    (h2 : bufSize ≤ buf.length) (f : FileChunksInfo) (hf : l[start]? = some f)
    (hfit : maxEncodeLen f + off < bufSize) :
    ∃ n buf' off', encodeFileChunksInfoList bufSize start l buf off = .ok (n, buf', off') ∧ 1 ≤ n := by
  obtain ⟨n, buf', off', he, _, _, hdec, hstop⟩ := C10_roundtrip bufSize hB l hl start buf off h0 h1 h2
  refine ⟨n, buf', off', he, ?_⟩
  rcases Nat.eq_zero_or_pos n with rfl | h
  · exfalso
    have hstart : start < l.length := by
      by_contra hc
      rw [List.getElem?_eq_none (by omega)] at hf
      simp at hf
    have hdrop : l.drop start = f :: l.drop (start + 1) := by
      rw [List.drop_eq_getElem_cons hstart]
      congr 1
      rw [List.getElem?_eq_getElem hstart] at hf
      exact Option.some.inj hf
    have := hstop f (by rw [hdrop, List.filter_cons_of_pos (by simp; omega)]; rfl)
    -- nothing was written, so `off' = off`
    unfold encodeFileChunksInfoList at he
    rw [hdrop] at he
    unfold encodeListLoop at he
    rw [if_neg (by omega), if_neg (by omega)] at he
    have w := (writes_encodeFileChunksInfo (max := bufSize) (by omega)
      (by have : int32Max ≤ int64Max := by decide
          omega) f
      (hl f (by rw [List.getElem?_eq_getElem hstart] at hf; rw [← Option.some.inj hf]
                exact List.getElem_mem hstart)))
    rcases hw : encodeFileChunksInfo bufSize f buf off with e | ⟨b, bb, oo⟩
    · rw [hw] at he; simp at he
    · rw [hw] at he
      simp only at he
      have grow : ∀ (fs : List FileChunksInfo) (n0 : Nat) (bf : Bytes) (o : Int) (r : Nat × Bytes × Int),
          encodeListLoop off bufSize fs n0 bf o = .ok r → n0 ≤ r.1 := by
        intro fs
        induction fs with
        | nil => intro n0 bf o r hr; unfold encodeListLoop at hr; simp at hr; rw [← hr]; exact Nat.le_refl _
        | cons g gs ih =>
          intro n0 bf o r hr
          unfold encodeListLoop at hr
          split at hr
          · exact ih _ _ _ _ hr
          · split at hr
            · simp at hr; rw [← hr]; exact Nat.le_refl _
            · split at hr
              · simp at hr
              · have := ih _ _ _ _ hr
                omega
      have := grow _ _ _ _ _ he
      simp at this
  · exact h

/-- Arbitrary bytes decoded as a chunk list never fault. -/
theorem C10_decode_total (src : Bytes) (off size : Int) (h0 : 0 ≤ off) (h1 : off ≤ size)
    (h2 : size ≤ src.length) :
    ∃ r off', decodeFileChunksInfoList src off size = .ok (r, off') ∧ off ≤ off' ∧ off' ≤ size := by
  unfold decodeFileChunksInfoList
  rw [makeByteRange_ok _ _ _ h0 h1 h2]
  have hl := seg_length src off size h0 h1 h2
  simp only
  cases decodeListLoop (seg src off size).length (seg src off size) with
  | none => exact ⟨_, _, rfl, by omega, by omega⟩
  | some l => exact ⟨_, _, rfl, by omega, by omega⟩

example : (⟨3, [97], 100, [⟨0, 50⟩, ⟨60, 70⟩]⟩ : FileChunksInfo).WF := by
  unfold FileChunksInfo.WF; decide

/-! ## C11 The chunk-list exchange terminates and delivers the list -/

theorem leBytes_take (buf : Bytes) (bs : Bytes) (h : bs.length = 4) (off : Nat) (hoff : 4 ≤ off) :
    (splice buf 0 bs).take off = bs ++ seg buf 4 off := by
  unfold splice seg
  simp only [List.take_zero, List.nil_append, Nat.zero_add, h]
  rw [List.take_append, List.take_of_length_le (by omega), h]
  congr 1
  have : (off : Int).toNat = off := by omega
  rw [this, List.drop_take]
  rfl

/-- The message loop of both sides from any intermediate point. -/
theorem exchange_loop (bufSize : Int) (hB0 : 4 ≤ bufSize) (hB : bufSize ≤ int32Max)
    (l : List FileChunksInfo) (hl : ∀ f ∈ l, f.WF)
    (hfit : ∀ f ∈ l, maxEncodeLen f + 4 < bufSize) :
    ∀ (fuel n : Nat) (buf : Bytes), n ≤ l.length → l.length ≤ n + fuel → bufSize ≤ buf.length →
      ∃ ms, sendChunksLoop bufSize l fuel n buf = .ok (some ms) ∧ ms.length ≤ l.length - n ∧
        ∀ tail rfuel, l.length ≤ n + rfuel →
          readChunksLoop bufSize l.length rfuel (l.take n) (ms.flatten ++ tail) = .ok (.done l tail) := by
  intro fuel
  have h32 : int32Max = 2147483647 := rfl
  induction fuel with
  | zero =>
    intro n buf hn hfuel hbuf
    have : n = l.length := by omega
    subst this
    refine ⟨[], ?_, by simp, ?_⟩
    · unfold sendChunksLoop; rw [if_neg (by omega)]
    · intro tail rfuel _
      unfold readChunksLoop
      simp
  | succ fuel ih =>
    intro n buf hn hfuel hbuf
    unfold sendChunksLoop
    by_cases hlt : n < l.length
    · rw [if_pos hlt]
      have hget : l[n]? = some l[n] := List.getElem?_eq_getElem hlt
      obtain ⟨k, buf', off', he, hoff, _, hdec, _⟩ :=
        C10_roundtrip bufSize hB l hl n buf 4 (by omega) hB0 hbuf
      obtain ⟨k', _, _, he', hk1⟩ := C10_progress bufSize hB l hl n buf 4 (by omega) hB0 hbuf l[n] hget
        (hfit _ (List.getElem_mem hlt))
      rw [he] at he'
      simp only [Except.ok.injEq, Prod.mk.injEq] at he'
      obtain ⟨rfl, _, _⟩ := he'
      have hfilter : ((l.drop n).filter fun f => decide (maxEncodeLen f + 4 ≤ bufSize)) = l.drop n := by
        rw [List.filter_eq_self]
        intro f hf
        have := hfit f (List.mem_of_mem_drop hf)
        simp; omega
      rw [hfilter] at hdec
      -- how far the message goes
      obtain ⟨k2, hk2, hk2a, hk2b, _⟩ := encodeListLoop_spec 4 bufSize hB (l.drop n) 0 buf 4
        (fun f hf => hl f (List.mem_of_mem_drop hf)) (by omega) (Int.le_refl _) hB0 hbuf
      have hkk : k = k2 ∧ off' = 4 + (((sendable 4 bufSize (l.drop n)).take k2).flatMap
          fileChunksBytes).length := by
        unfold encodeFileChunksInfoList at he
        rw [hk2] at he
        simp only [Nat.zero_add, Except.ok.injEq, Prod.mk.injEq] at he
        exact ⟨he.1.symm, he.2.2.symm⟩
      have hsend : sendable 4 bufSize (l.drop n) = l.drop n := hfilter
      rw [hsend] at hkk hk2b
      obtain ⟨rfl, hoffeq⟩ := hkk
      have hkle : n + k ≤ l.length := by
        rw [List.length_drop] at hk2b; omega
      have hoff4 : 4 ≤ off' := by omega
      have hst : storeBytes buf' 0 (leBytes 4 (off' - 4)) =
          .ok (splice buf' 0 (leBytes 4 (off' - 4))) := by
        have := storeBytes_ok (leBytes 4 (off' - 4)) buf' 0 (Int.le_refl _)
          (by rw [leBytes_length]; omega)
        simpa using this
      have hsl := splice_length buf' 0 (leBytes 4 (off' - 4)) (by rw [leBytes_length]; omega)
      obtain ⟨ms, hms, hmslen, hread⟩ := ih (n + k) (splice buf' 0 (leBytes 4 (off' - 4))) hkle (by omega)
        (by omega)
      rw [he]
      simp only
      rw [hst]
      simp only
      rw [hms]
      refine ⟨_, rfl, by simp only [List.length_cons]; omega, ?_⟩
      intro tail rfuel hrf
      obtain ⟨rf, rfl⟩ : ∃ rf, rfuel = rf + 1 := ⟨rfuel - 1, by omega⟩
      have htake : (splice buf' 0 (leBytes 4 (off' - 4))).take off'.toNat =
          leBytes 4 (off' - 4) ++ seg buf' 4 off' := by
        have := leBytes_take buf' (leBytes 4 (off' - 4)) (leBytes_length _ _) off'.toNat (by omega)
        rw [this]
        congr 2
        omega
      have hsegl := seg_length buf' 4 off' (by omega) hoff4 (by omega)
      unfold readChunksLoop
      have hlt' : (List.take n l).length = n := by rw [List.length_take]; omega
      rw [if_neg (by rw [hlt']; omega), if_neg (by rw [hlt']; omega)]
      have hstream : ((splice buf' 0 (leBytes 4 (off' - 4))).take off'.toNat :: ms).flatten ++ tail =
          leBytes 4 (off' - 4) ++ (seg buf' 4 off' ++ (ms.flatten ++ tail)) := by
        rw [htake]; simp
      simp only
      rw [hstream, if_neg (by simp [leBytes_length])]
      have e1 : List.take 4 (leBytes 4 (off' - 4) ++ (seg buf' 4 off' ++ (ms.flatten ++ tail))) =
          leBytes 4 (off' - 4) := by
        have := leBytes_length 4 (off' - 4)
        rw [List.take_append_of_le_length (by omega), List.take_of_length_le (by omega)]
      have e2 : List.drop 4 (leBytes 4 (off' - 4) ++ (seg buf' 4 off' ++ (ms.flatten ++ tail))) =
          seg buf' 4 off' ++ (ms.flatten ++ tail) := by
        have := leBytes_length 4 (off' - 4)
        rw [List.drop_append_of_le_length (by omega), List.drop_of_length_le (by omega)]
        simp
      have e3 := leNat_leBytes 4 (off' - 4) (by omega) (by omega)
      rw [e1, e2]
      have e4 : (if leNat (leBytes 4 (off' - 4)) < 2147483648 then (leNat (leBytes 4 (off' - 4)) : Int)
          else (leNat (leBytes 4 (off' - 4)) : Int) - 4294967296) = off' - 4 := by
        rw [if_pos (by omega), e3]
      rw [e4, if_neg (by omega), if_neg (by simp only [List.length_append]; omega)]
      have e5 : (seg buf' 4 off' ++ (ms.flatten ++ tail)).take (off' - 4).toNat = seg buf' 4 off' := by
        rw [List.take_append_of_le_length (by omega), List.take_of_length_le (by omega)]
      have e6 : (seg buf' 4 off' ++ (ms.flatten ++ tail)).drop (off' - 4).toNat = ms.flatten ++ tail := by
        rw [List.drop_append_of_le_length (by omega), List.drop_of_length_le (by omega)]
        simp
      rw [e5, e6]
      have hd2 : decodeFileChunksInfoList (seg buf' 4 off') 0 (off' - 4) =
          .ok (some ((l.drop n).take k), off' - 4) := by
        unfold decodeFileChunksInfoList at hdec ⊢
        rw [makeByteRange_ok _ _ _ (by omega) hoff4 (by omega)] at hdec
        rw [makeByteRange_ok _ _ _ (by omega) (by omega) (by omega)]
        have e7 : seg (seg buf' 4 off') 0 (off' - 4) = seg buf' 4 off' := by
          unfold seg
          simp only [Int.toNat_zero, List.drop_zero]
          rw [List.take_of_length_le]
          simp only [List.length_drop, List.length_take]
          omega
        rw [e7]
        simp only at hdec ⊢
        cases hc : decodeListLoop (seg buf' 4 off').length (seg buf' 4 off') with
        | none => rw [hc] at hdec; simp at hdec
        | some x =>
          rw [hc] at hdec
          simp only [Except.ok.injEq, Prod.mk.injEq, Option.some.injEq] at hdec
          simp only [hdec.1, Except.ok.injEq, Prod.mk.injEq, true_and]
          omega
      rw [hd2]
      simp only
      have e8 : l.take n ++ (l.drop n).take k = l.take (n + k) := (List.take_add).symm
      rw [e8]
      exact hread tail rf (by omega)
    · rw [if_neg hlt]
      have : n = l.length := by omega
      subst this
      refine ⟨[], rfl, by simp, ?_⟩
      intro tail rfuel _
      unfold readChunksLoop
      simp

/-- Full statement (C11): for every list of records the receiver keeps, the
 receiver's loop ends and the sender ends up with that very list.
Proved here under the condition that every record is below the message size
(`maxEncodeLen f + 4 < bufSize`); missing: larger records, for which the code
violates the property (`C11_endless`, `C11_boundary_endless`, `C11_duplicate`
below). -/
theorem C11_exchange_partial (bufSize : Int) (hB0 : 17 ≤ bufSize) (hB : bufSize ≤ int32Max)
    (l : List FileChunksInfo) (hl : ∀ f ∈ l, f.WF) (hlen : NN l.length)
    (hfit : ∀ f ∈ l, maxEncodeLen f + 4 < bufSize) (buf : Bytes) (hbuf : bufSize ≤ buf.length) :
    ∃ stream, sendFileChunks bufSize l l.length buf = .ok (some stream) ∧
      readFileChunks l.length stream = .ok (.done l []) := by
  have h32 : int32Max = 2147483647 := rfl
  have h64 : int64Max = 9223372036854775807 := rfl
  have hs := storeByte_ok buf 0 0x43 (Int.le_refl _) (by omega)
  have hsl := splice_length buf (0 : Int).toNat [0x43] (by simp; omega)
  have hBn : NN bufSize := ⟨by omega, by omega⟩
  have w := writes_encodeChunksCmd bufSize bufSize l.length
  have e : (leBytes 8 bufSize ++ leBytes 8 (l.length : Int)).length = 16 := by simp [leBytes_length]
  have w' := (w (splice buf (0 : Int).toNat [0x43]) 1 (by omega) (by omega) (by omega)).1 (by rw [e]; omega)
  have hsl2 := splice_length (splice buf (0 : Int).toNat [0x43]) (1 : Int).toNat
    (leBytes 8 bufSize ++ leBytes 8 (l.length : Int)) (by omega)
  obtain ⟨ms, hms, _, hread⟩ := exchange_loop bufSize (by omega) hB l hl hfit l.length 0
    (splice (splice buf (0 : Int).toNat [0x43]) (1 : Int).toNat
      (leBytes 8 bufSize ++ leBytes 8 (l.length : Int))) (by omega) (by omega) (by omega)
  unfold sendFileChunks
  rw [hs]
  simp only
  rw [w']
  simp only
  rw [hms]
  refine ⟨_, rfl, ?_⟩
  have htake : (splice (splice buf (0 : Int).toNat [0x43]) (1 : Int).toNat
      (leBytes 8 bufSize ++ leBytes 8 (l.length : Int))).take
        (1 + ((leBytes 8 bufSize ++ leBytes 8 (l.length : Int)).length : Int)).toNat =
      0x43 :: (leBytes 8 bufSize ++ leBytes 8 (l.length : Int)) := by
    have h1 := splice_append buf (0 : Int).toNat [0x43] (leBytes 8 bufSize ++ leBytes 8 (l.length : Int))
      (by simp only [e, List.length_singleton]; omega)
    have h2 : (1 : Int).toNat = (0 : Int).toNat + [(0x43 : UInt8)].length := rfl
    rw [h2, h1, e]
    unfold splice
    have h3 : (0 : Int).toNat = 0 := rfl
    rw [h3, List.take_zero, List.nil_append, List.take_append_of_le_length (by simp [leBytes_length]),
      List.take_of_length_le (by simp [leBytes_length])]
    rfl
  rw [htake]
  unfold readFileChunks
  simp only [List.cons_append, ne_eq, not_true_eq_false, if_false]
  rw [if_neg (by simp only [List.length_append, leBytes_length]; omega)]
  have e1 : ((leBytes 8 bufSize ++ leBytes 8 (l.length : Int)) ++ ms.flatten).take 16 =
      leBytes 8 bufSize ++ leBytes 8 (l.length : Int) := by
    rw [List.take_append_of_le_length (by omega), List.take_of_length_le (by omega)]
  have e2 : ((leBytes 8 bufSize ++ leBytes 8 (l.length : Int)) ++ ms.flatten).drop 16 = ms.flatten := by
    rw [List.drop_append_of_le_length (by omega), List.drop_of_length_le (by omega)]; simp
  rw [e1, e2]
  have hdec : decodeChunksCmd (leBytes 8 bufSize ++ leBytes 8 (l.length : Int)) 0 16 =
      .ok (some (bufSize, (l.length : Int)), 16) := by
    unfold decodeChunksCmd withRange
    rw [makeByteRange_ok _ _ _ (by omega) (by omega) (by omega)]
    have e3 : seg (leBytes 8 bufSize ++ leBytes 8 (l.length : Int)) 0 16 =
        (leBytes 8 bufSize ++ leBytes 8 (l.length : Int)) ++ [] := by
      unfold seg
      simp only [Int.toNat_zero, List.drop_zero, List.append_nil]
      rw [List.take_of_length_le (by rw [e]; decide)]
    rw [e3]
    have p := ((parses_decodeIntFixed 8 bufSize hBn.1 (by omega)).bind
      (f := fun a => (decodeIntFixed 8).bind fun b => Dec.pure (a, b))
      ((parses_decodeIntFixed 8 (l.length : Int) hlen.1 (by have := hlen.2; omega)).map
        (fun b => (bufSize, b)))) []
    simp only
    rw [p]
    simp only [List.append_nil, e, List.length_nil]
    rfl
  rw [hdec]
  simp only
  rw [if_neg (by have := hlen.1; omega)]
  have := hread [] l.length (by omega)
  simpa using this

/-- Disagreement with the code: one record that is too large for the buffer
makes the receiver send empty messages for ever, whatever else is in the
list before it. -/
theorem C11_endless (bufSize : Int) (hB0 : 4 ≤ bufSize) (l : List FileChunksInfo) (big : FileChunksInfo)
    (hbig : maxEncodeLen big + 4 ≥ bufSize) (buf : Bytes) (hbuf : bufSize ≤ buf.length)
    (fuel : Nat) : sendChunksLoop bufSize (l ++ [big]) fuel l.length buf = .ok none := by
  induction fuel generalizing buf with
  | zero => unfold sendChunksLoop; rw [if_pos (by simp)]
  | succ fuel ih =>
    unfold sendChunksLoop
    rw [if_pos (by simp)]
    have hdrop : (l ++ [big]).drop l.length = [big] := by simp
    have he : encodeFileChunksInfoList bufSize l.length (l ++ [big]) buf 4 = .ok (0, buf, 4) := by
      unfold encodeFileChunksInfoList
      rw [hdrop]
      unfold encodeListLoop
      split
      · unfold encodeListLoop; rfl
      · rfl
    rw [he]
    simp only
    have hst : storeBytes buf 0 (leBytes 4 (4 - 4)) = .ok (splice buf 0 (leBytes 4 (4 - 4))) := by
      have := storeBytes_ok (leBytes 4 (4 - 4)) buf 0 (Int.le_refl _) (by rw [leBytes_length]; omega)
      simpa using this
    have hsl := splice_length buf 0 (leBytes 4 (4 - 4)) (by rw [leBytes_length]; omega)
    rw [hst]
    simp only [Nat.add_zero]
    rw [ih _ (by omega)]

/-- In particular a record of exactly the buffer size, which does fit, blocks the
exchange (`>` at Protocol.cpp:425 against `>=` at line 429). -/
theorem C11_boundary_endless : ∃ (f : FileChunksInfo), f.WF ∧ maxEncodeLen f + 4 = 57 ∧
    (4 + (fileChunksBytes f).length : Int) ≤ 57 ∧
    ∀ fuel, sendChunksLoop 57 [f] fuel 0 (List.replicate 57 0) = .ok none := by
  refine ⟨⟨0, [97], 10, [⟨0, 5⟩]⟩, by unfold FileChunksInfo.WF; decide, by decide, by decide +kernel, ?_⟩
  intro fuel
  have := C11_endless 57 (by decide) [] ⟨0, [97], 10, [⟨0, 5⟩]⟩ (by decide)
    (List.replicate 57 0) (by decide) fuel
  simpa using this

/-- Non-vacuity of `C11_exchange_partial`. -/
example : ∃ l : List FileChunksInfo, l.length = 2 ∧ (∀ f ∈ l, f.WF) ∧
    ∀ f ∈ l, maxEncodeLen f + 4 < 8192 := by
  refine ⟨[⟨0, [97], 10, [⟨0, 5⟩]⟩, ⟨1, [98], 10, []⟩], rfl, ?_, ?_⟩
  · unfold FileChunksInfo.WF; decide
  · decide

/-- Stream of a finished exchange (for the witness below). -/
def streamOf : Except Fault (Option Bytes) → Bytes
  | .ok (some s) => s
  | _ => []

/-- A too large record before others is skipped without being counted, so later
records are sent twice: the sender accepts a list with duplicates and without
the large record. -/
theorem C11_duplicate : ∃ (big a b : FileChunksInfo) (stream : Bytes), big.WF ∧ a.WF ∧ b.WF ∧
    sendFileChunks 120 [big, a, b] 5 (List.replicate 120 0) = .ok (some stream) ∧
    readFileChunks 5 stream = .ok (.done [a, b, b] []) := by
  refine ⟨⟨0, [97], 10, List.replicate 5 ⟨0, 1⟩⟩, ⟨1, [98], 10, []⟩, ⟨2, [99], 10, []⟩,
    streamOf (sendFileChunks 120 [⟨0, [97], 10, List.replicate 5 ⟨0, 1⟩⟩, ⟨1, [98], 10, []⟩,
      ⟨2, [99], 10, []⟩] 5 (List.replicate 120 0)), ?_, ?_, ?_, by decide +kernel, ?_⟩
  · unfold FileChunksInfo.WF; decide
  · unfold FileChunksInfo.WF; decide
  · unfold FileChunksInfo.WF; decide
  · decide +kernel

theorem readChunksLoop_count (bufSize numFiles : Int) (fuel : Nat) : ∀ (acc : List FileChunksInfo) (stream : Bytes)
    (l : List FileChunksInfo) (rest : Bytes), readChunksLoop bufSize numFiles fuel acc stream = .ok (.done l rest) →
      (l.length : Int) = numFiles := by
  induction fuel with
  | zero =>
    intro acc stream l rest h
    unfold readChunksLoop at h
    split at h
    · simp at h
    split at h
    · rename_i e
      simp only [Except.ok.injEq, ReadChunks.done.injEq] at h
      rw [← h.1]; exact e
    · simp at h
  | succ fuel ih =>
    intro acc stream l rest h
    unfold readChunksLoop at h
    split at h
    · simp at h
    split at h
    · rename_i e
      simp only [Except.ok.injEq, ReadChunks.done.injEq] at h
      rw [← h.1]; exact e
    simp only at h
    generalize (if leNat (stream.take 4) < 2147483648 then (leNat (stream.take 4) : Int)
      else (leNat (stream.take 4) : Int) - 4294967296) = n at h
    split at h
    · simp at h
    split at h
    · simp at h
    split at h
    · simp at h
    split at h
    · simp at h
    · simp at h
    · exact ih _ _ _ _ h

/-- Whatever the other side sends, the sender accepts no list but one with as many files as were announced. -/
theorem C11_count (fuel : Nat) (bufSize numFiles : Int) (hb : NN bufSize) (hn : NN numFiles) (stream rest : Bytes)
    (l : List FileChunksInfo)
    (h : readFileChunks fuel (0x43 :: (leBytes 8 bufSize ++ leBytes 8 numFiles ++ stream)) = .ok (.done l rest)) :
    (l.length : Int) = numFiles := by
  have hl8 : ∀ v, (leBytes 8 v).length = 8 := leBytes_length 8
  have e3 : int64Max = 9223372036854775807 := rfl
  have et : (leBytes 8 bufSize ++ leBytes 8 numFiles ++ stream).take 16 = leBytes 8 bufSize ++ leBytes 8 numFiles :=
    List.take_left' (by simp [hl8])
  unfold readFileChunks at h
  simp only at h
  rw [if_neg (by simp), if_neg (by simp only [List.length_append, hl8]; omega), et] at h
  have hd : decodeChunksCmd (leBytes 8 bufSize ++ leBytes 8 numFiles) 0 16 = .ok (some (bufSize, numFiles), 16) := by
    have p1 := parses_decodeIntFixed 8 bufSize hb.1 (by have := hb.2; omega) (leBytes 8 numFiles)
    have p2 := parses_decodeIntFixed 8 numFiles hn.1 (by have := hn.2; omega) []
    rw [List.append_nil] at p2
    unfold decodeChunksCmd withRange
    rw [makeByteRange_ok _ _ _ (by decide) (by decide) (by simp [hl8])]
    have es : seg (leBytes 8 bufSize ++ leBytes 8 numFiles) 0 16 = leBytes 8 bufSize ++ leBytes 8 numFiles := by
      unfold seg
      simp [List.take_of_length_le, hl8]
    rw [es]
    simp [Dec.bind, Dec.pure, p1, p2, hl8]
  rw [hd] at h
  simp only at h
  rw [if_neg (by have := hb.1; have := hn.1; omega)] at h
  exact readChunksLoop_count _ _ _ _ _ _ _ h

/-- Case: two files are sent; two or one were announced. -/
example : readFileChunks 3 (0x43 :: (leBytes 8 64 ++ leBytes 8 2 ++ (leBytes 4 14 ++
      [1, 1, 97, 5, 1, 0, 3, 2, 1, 98, 5, 1, 0, 3]))) = .ok (.done [⟨1, [97], 5, [⟨0, 3⟩]⟩, ⟨2, [98], 5, [⟨0, 3⟩]⟩] []) ∧
    readFileChunks 3 (0x43 :: (leBytes 8 64 ++ leBytes 8 1 ++ (leBytes 4 14 ++
      [1, 1, 97, 5, 1, 0, 3, 2, 1, 98, 5, 1, 0, 3]))) = .ok .bad := by decide +kernel

/-! ## C50 A peer cannot make wdt write outside its own buffers -/

/-- Disagreement with the code: the length in front of each message of the list
is not compared with the size of the buffer allocated for it
(SenderThread.cpp:573-582), so the other side can make the sender write past
its heap buffer. -/
theorem C50_chunk_length_overflow : ∃ stream : Bytes,
    readFileChunks 1 (0x43 :: stream) = .error .ub :=
  ⟨leBytes 8 64 ++ leBytes 8 1 ++ leBytes 4 65 ++ List.replicate 65 0, by decide +kernel⟩

/-- It cannot happen with a receiver that keeps the lengths within the buffer
size it announced; in particular not with the receiver of this code, see
`C11_exchange_partial`.  Missing: the hostile lengths above. -/
theorem C50_chunk_length_partial (bufSize numFiles : Int) (fuel : Nat) :
    ∀ (acc : List FileChunksInfo) (msgs : List Bytes) (tail : Bytes),
      bufSize ≤ int32Max → tail.length < 4 → (∀ m ∈ msgs, (m.length : Int) ≤ bufSize) →
      readChunksLoop bufSize numFiles fuel acc
        ((msgs.map fun m => leBytes 4 m.length ++ m).flatten ++ tail) ≠ .error .ub := by
  induction fuel with
  | zero =>
    intro acc msgs tail hB ht hm
    unfold readChunksLoop
    split
    · simp
    · split <;> simp
  | succ fuel ih =>
    intro acc msgs tail hB ht hm
    have h32 : int32Max = 2147483647 := rfl
    unfold readChunksLoop
    split
    · simp
    split
    · simp
    cases msgs with
    | nil => simp only [List.map_nil, List.flatten_nil, List.nil_append]; rw [if_pos ht]; simp
    | cons m ms =>
      have hml := hm m (by simp)
      have hl4 := leBytes_length 4 (m.length : Int)
      have e0 : (List.map (fun m => leBytes 4 (m.length : Int) ++ m) (m :: ms)).flatten ++ tail =
          leBytes 4 m.length ++ (m ++ ((List.map (fun m => leBytes 4 (m.length : Int) ++ m) ms).flatten
            ++ tail)) := by simp
      rw [e0]
      generalize hT : (List.map (fun m => leBytes 4 (m.length : Int) ++ m) ms).flatten ++ tail = T
      have e1 : List.take 4 (leBytes 4 (m.length : Int) ++ (m ++ T)) = leBytes 4 m.length := by
        rw [List.take_append_of_le_length (by omega), List.take_of_length_le (by omega)]
      have e2 : List.drop 4 (leBytes 4 (m.length : Int) ++ (m ++ T)) = m ++ T := by
        rw [List.drop_append_of_le_length (by omega), List.drop_of_length_le (by omega)]; simp
      have e3 := leNat_leBytes 4 (m.length : Int) (by omega) (by omega)
      simp only
      rw [if_neg (by simp only [List.length_append]; omega), e1, e2]
      have e4 : (if leNat (leBytes 4 (m.length : Int)) < 2147483648 then
          (leNat (leBytes 4 (m.length : Int)) : Int)
          else (leNat (leBytes 4 (m.length : Int)) : Int) - 4294967296) = m.length := by
        rw [if_pos (by omega), e3]
      rw [e4, if_neg (by omega), if_neg (by simp only [List.length_append]; omega)]
      have e5 : (m ++ T).take (m.length : Int).toNat = m := by simp
      have e6 : (m ++ T).drop (m.length : Int).toNat = T := by simp
      rw [e5, e6]
      obtain ⟨r, off', hd, _, _⟩ := C10_decode_total m 0 m.length (by omega) (by omega) (by omega)
      rw [hd]
      cases r with
      | none => simp
      | some l =>
        simp only
        rw [← hT]
        exact ih _ ms tail hB ht (fun m' hm' => hm m' (by simp [hm']))

end Wdt
