import Verif.Model.TransferLog
import Verif.Lemmas.Serial
/-
Helper lemmas about the transfer log.
-/
namespace Wdt

/-- Bytes of the fields of an entry. -/
def LogEntry.body : LogEntry → Bytes
  | .header ts v r s c => encodeVarU64Str ts.toNat ++ (encodeVarU64Str v.toNat ++ (strBytes r ++
      (strBytes s ++ encodeVarU64Str c.toNat)))
  | .fileCreation ts n i s => encodeVarU64Str ts.toNat ++ (strBytes n ++ (encodeVarU64Str i.toNat ++
      encodeVarU64Str s.toNat))
  | .blockWrite ts i o s => encodeVarU64Str ts.toNat ++ (encodeVarU64Str i.toNat ++
      (encodeVarU64Str o.toNat ++ encodeVarU64Str s.toNat))
  | .fileInvalidation ts i => encodeVarU64Str ts.toNat ++ encodeVarU64Str i.toNat
  | .fileResize ts i s => encodeVarU64Str ts.toNat ++ (encodeVarU64Str i.toNat ++ encodeVarU64Str s.toNat)
  | .dirInvalidation ts => encodeVarU64Str ts.toNat

/-- An entry without its length. -/
def LogEntry.payload (e : LogEntry) : Bytes := e.type :: e.body

/-- A 63-bit number. -/
def I63 (v : Int) : Prop := 0 ≤ v ∧ v ≤ int64Max

/-- Entries whose numbers are in range, with a name of at most `PATH_MAX` bytes and a header
whose strings fit. -/
def LogEntry.InRange : LogEntry → Prop
  | .header ts v r s c => I63 ts ∧ (0 ≤ v ∧ v ≤ int32Max) ∧ I63 c ∧ r.length + s.length ≤ 4095
  | .fileCreation ts n i s => I63 ts ∧ I63 i ∧ I63 s ∧ n.length ≤ 4096
  | .blockWrite ts i o s => I63 ts ∧ I63 i ∧ I63 o ∧ I63 s
  | .fileInvalidation ts i => I63 ts ∧ I63 i
  | .fileResize ts i s => I63 ts ∧ I63 i ∧ I63 s
  | .dirInvalidation ts => I63 ts

instance (v : Int) : Decidable (I63 v) := by unfold I63; infer_instance
instance (e : LogEntry) : Decidable e.InRange := by cases e <;> simp only [LogEntry.InRange] <;> infer_instance

/-- Length prefix and content. -/
def frame (p : Bytes) : Bytes := leBytes 2 p.length ++ p

theorem writes_fields (max : Int) (hm0 : 0 ≤ max) (hm : max ≤ int64Max) (e : LogEntry) (h : e.InRange) :
    Writes max (e.fields max) e.body := by
  have v := fun (x : Int) (hx : I63 x) => writes_encodeVarI64C max hm0 hm x hx.1
  have s := writes_encodeString max hm0 hm
  cases e <;> simp only [LogEntry.InRange] at h <;> simp only [LogEntry.fields, LogEntry.body]
  · exact (v _ h.1).and ((writes_encodeVarI64C max hm0 hm _ h.2.1.1).and ((s _).and ((s _).and (v _ h.2.2.1))))
  · exact (v _ h.1).and ((s _).and ((v _ h.2.1).and (v _ h.2.2.1)))
  · exact (v _ h.1).and ((v _ h.2.1).and ((v _ h.2.2.1).and (v _ h.2.2.2)))
  · exact (v _ h.1).and (v _ h.2)
  · exact (v _ h.1).and ((v _ h.2.1).and (v _ h.2.2))
  · exact v _ h

theorem strBytes_length (s : Bytes) (h : s.length < 16384) : (strBytes s).length ≤ s.length + 2 := by
  have := encodeVarU64Str_length_lt 2 s.length (by omega) (by omega) (by omega)
  simp only [strBytes, List.length_append]
  omega

theorem body_length (e : LogEntry) (h : e.InRange) : e.body.length + 3 ≤ kMaxEntryLength := by
  have l := encodeVarU64Str_length_le
  unfold kMaxEntryLength
  cases e with
  | header ts v r s c =>
    simp only [LogEntry.InRange] at h
    have h1 := strBytes_length r (by omega)
    have h2 := strBytes_length s (by omega)
    have := l ts.toNat; have := l v.toNat; have := l c.toNat
    simp only [LogEntry.body, List.length_append]; omega
  | fileCreation ts n i s =>
    simp only [LogEntry.InRange] at h
    have h1 := strBytes_length n (by omega)
    have := l ts.toNat; have := l i.toNat; have := l s.toNat
    simp only [LogEntry.body, List.length_append]; omega
  | blockWrite ts i o s =>
    have := l ts.toNat; have := l i.toNat; have := l o.toNat; have := l s.toNat
    simp only [LogEntry.body, List.length_append]; omega
  | fileInvalidation ts i =>
    have := l ts.toNat; have := l i.toNat
    simp only [LogEntry.body, List.length_append]; omega
  | fileResize ts i s =>
    have := l ts.toNat; have := l i.toNat; have := l s.toNat
    simp only [LogEntry.body, List.length_append]; omega
  | dirInvalidation ts =>
    have := l ts.toNat
    simp only [LogEntry.body]; omega

theorem encode_ok (max : Nat) (hm : (max : Int) ≤ int64Max) (e : LogEntry) (h : e.InRange)
    (hl : e.body.length + 3 ≤ max) (dest : Bytes) (hd : max ≤ dest.length) :
    e.encode max dest = .ok (e.body.length + 3, frame e.payload ++ dest.drop (e.body.length + 3)) := by
  unfold LogEntry.encode
  rw [if_neg (by omega), storeByte_ok _ _ _ (by omega) (by omega)]
  simp only
  have hs1 : (splice dest (Int.toNat 2) [e.type]).length = dest.length := splice_length _ _ _ (by simp; omega)
  have w := (writes_fields max (by omega) hm e h (splice dest (Int.toNat 2) [e.type]) 3 (by omega) (by omega)
    (by rw [hs1]; omega)).1 (by omega)
  rw [w]
  simp only
  have hs2 := splice_length (splice dest (Int.toNat 2) [e.type]) (Int.toNat 3) e.body (by rw [hs1]; simp; omega)
  rw [storeBytes_ok _ _ _ (by omega) (by rw [leBytes_length, hs2, hs1]; omega)]
  simp only [Except.ok.injEq, Prod.mk.injEq]
  refine ⟨by omega, ?_⟩
  have e1 := splice_append dest 2 [e.type] e.body (by simp; omega)
  have e2 : splice (splice dest (Int.toNat 2) [e.type]) (Int.toNat 3) e.body = splice dest 2 (e.type :: e.body) := by
    rw [show (Int.toNat 3) = 2 + [e.type].length from rfl, show Int.toNat 2 = 2 from rfl, e1]; rfl
  rw [e2]
  unfold splice frame LogEntry.payload
  have hll := leBytes_length 2 (3 + (e.body.length : Int) - 2)
  rw [hll]
  simp only [Int.toNat_zero, List.take_zero, List.nil_append, Nat.zero_add, List.length_cons]
  have hk : (3 + (e.body.length : Int) - 2) = ((e.body.length + 1 : Nat) : Int) := by omega
  rw [hk, List.append_assoc, List.drop_append_of_le_length (by simp; omega),
    List.drop_of_length_le (by simp; omega), List.nil_append, List.append_assoc]
  congr 2
  congr 1; omega

theorem record_ok (e : LogEntry) (h : e.InRange) : e.record = .ok (frame e.payload) := by
  have hb := body_length e h
  unfold LogEntry.record
  rw [encode_ok kMaxEntryLength (by decide) e h hb _ (by simp)]
  simp only
  rw [if_neg (by omega)]
  have hl : (frame e.payload).length = e.body.length + 3 := by
    simp [frame, leBytes_length, LogEntry.payload]; omega
  rw [show (Int.toNat (↑e.body.length + 3)) = (frame e.payload).length by omega, List.take_left]

theorem decodeAll_parses {α : Type} {d : Dec α} {b : Bytes} {a : α} (h : Parses d b a) : decodeAll d b = some a := by
  have := h []
  rw [List.append_nil] at this
  simp [decodeAll, this]

theorem p63 (v : Int) (h : I63 v) : Parses decodeInt64C (encodeVarU64Str v.toNat) v :=
  parses_decodeInt64C v h.1 h.2

theorem decode_body (e : LogEntry) (h : e.InRange) : decodeEntry e.type e.body = some e := by
  cases e with
  | header ts v r s c =>
    simp only [LogEntry.InRange] at h
    simp only [decodeEntry, LogEntry.type, LogEntry.body, if_true]
    refine decodeAll_parses ((p63 _ h.1).bind ((parses_decodeInt32C _ h.2.1.1 h.2.1.2).bind
      ((parses_decodeString r (by omega)).bind ((parses_decodeString s (by omega)).bind ?_))))
    have := (p63 _ h.2.2.1).bind (f := fun z => Dec.pure (LogEntry.header ts v r s z)) (parses_pure (LogEntry.header ts v r s c))
    rwa [List.append_nil] at this
  | fileCreation ts n i s =>
    simp only [LogEntry.InRange] at h
    simp only [decodeEntry, LogEntry.type, LogEntry.body]
    refine decodeAll_parses ((p63 _ h.1).bind ((parses_decodeString n (by omega)).bind ((p63 _ h.2.1).bind ?_)))
    have := (p63 _ h.2.2.1).bind (f := fun z => Dec.pure (LogEntry.fileCreation ts n i z)) (parses_pure (LogEntry.fileCreation ts n i s))
    rwa [List.append_nil] at this
  | blockWrite ts i o s =>
    simp only [LogEntry.InRange] at h
    simp only [decodeEntry, LogEntry.type, LogEntry.body]
    refine decodeAll_parses ((p63 _ h.1).bind ((p63 _ h.2.1).bind ((p63 _ h.2.2.1).bind ?_)))
    have := (p63 _ h.2.2.2).bind (f := fun z => Dec.pure (LogEntry.blockWrite ts i o z)) (parses_pure (LogEntry.blockWrite ts i o s))
    rwa [List.append_nil] at this
  | fileInvalidation ts i =>
    simp only [LogEntry.InRange] at h
    simp only [decodeEntry, LogEntry.type, LogEntry.body]
    refine decodeAll_parses ((p63 _ h.1).bind ?_)
    have := (p63 _ h.2).bind (f := fun z => Dec.pure (LogEntry.fileInvalidation ts z)) (parses_pure (LogEntry.fileInvalidation ts i))
    rwa [List.append_nil] at this
  | fileResize ts i s =>
    simp only [LogEntry.InRange] at h
    simp only [decodeEntry, LogEntry.type, LogEntry.body]
    refine decodeAll_parses ((p63 _ h.1).bind ((p63 _ h.2.1).bind ?_))
    have := (p63 _ h.2.2).bind (f := fun z => Dec.pure (LogEntry.fileResize ts i z)) (parses_pure (LogEntry.fileResize ts i s))
    rwa [List.append_nil] at this
  | dirInvalidation ts =>
    simp only [LogEntry.InRange] at h
    simp only [decodeEntry, LogEntry.type, LogEntry.body]
    have := (p63 _ h).bind (f := fun z => Dec.pure (LogEntry.dirInvalidation z)) (parses_pure (LogEntry.dirInvalidation ts))
    rw [List.append_nil] at this
    exact decodeAll_parses this

/-! ### Framing -/

/-- A payload the parser accepts as far as its length goes. -/
def PayloadOK (p : Bytes) : Prop := 1 ≤ p.length ∧ p.length ≤ kMaxEntryLength

/-- What may remain at the end of a log that was cut: nothing, one byte of a length, or a
length and less than that many bytes. -/
def Partial (t : Bytes) : Prop := t.length < 2 ∨
  (let n := leNat (t.take 2); n ≠ 0 ∧ n < 32768 ∧ n ≤ kMaxEntryLength ∧ (t.drop 2).length < n)

/-- Feed payloads to the parser, stopping when the log is found invalid. -/
def runPayloads (env : LogEnv) : LP → List Bytes → Except Fault LP
  | st, [] => .ok st
  | st, p :: ps => match st.step env p with
    | .error f => .error f
    | .ok st' => if st'.status = eINVALID_LOG then .ok st' else runPayloads env st' ps

theorem frame_length (p : Bytes) : (frame p).length = p.length + 2 := by
  simp [frame, leBytes_length]; omega

theorem leNat_prefix (p rest : Bytes) (h : p.length < 32768) :
    leNat ((frame p ++ rest).take 2) = p.length ∧ (frame p ++ rest).drop 2 = p ++ rest := by
  have hl := leBytes_length 2 (p.length : Int)
  unfold frame
  rw [List.append_assoc]
  constructor
  · rw [List.take_append_of_le_length (by omega), List.take_of_length_le (by omega)]
    have := leNat_leBytes 2 (p.length : Int) (by omega) (by omega)
    omega
  · rw [List.drop_append_of_le_length (by omega), List.drop_of_length_le (by omega), List.nil_append]

theorem parseLoop_frame (env : LogEnv) (fuel : Nat) (st : LP) (p rest : Bytes) (h : PayloadOK p) :
    parseLoop env (fuel + 1) st (frame p ++ rest) =
      match st.step env p with
      | .error f => .error f
      | .ok st' => if st'.status = eINVALID_LOG then .ok (st', 0) else parseLoop env fuel st' rest := by
  have hk : kMaxEntryLength < 32768 := by decide
  obtain ⟨h1, h2⟩ := h
  obtain ⟨e1, e2⟩ := leNat_prefix p rest (by omega)
  have hl : (frame p ++ rest).length = p.length + 2 + rest.length := by
    rw [List.length_append, frame_length]
  conv => lhs; unfold parseLoop
  rw [if_neg (by omega), if_neg (by omega)]
  simp only [e1, e2]
  rw [if_neg (by omega), if_neg (by rw [List.length_append]; omega), List.take_left]
  have e3 : (frame p ++ rest).drop (2 + p.length) = rest := by
    rw [← List.drop_drop, e2, List.drop_left]
  rw [e3]
  cases st.step env p <;> rfl

theorem parseLoop_partial (env : LogEnv) (fuel : Nat) (st : LP) (t : Bytes) (h : Partial t) :
    parseLoop env (fuel + 1) st t = .ok (st, t.length) := by
  unfold parseLoop
  by_cases h0 : t.length = 0
  · rw [if_pos h0, h0]
  rw [if_neg h0]
  rcases h with h | ⟨h1, h2, h3, h4⟩
  · rw [if_pos h]
  · by_cases h5 : t.length < 2
    · rw [if_pos h5]
    · rw [if_neg h5]
      simp only
      rw [if_neg (by omega), if_pos h4]

theorem parseLoop_frames (env : LogEnv) (t : Bytes) (ht : Partial t) (ps : List Bytes) : ∀ (st : LP) (fuel : Nat),
    (∀ p ∈ ps, PayloadOK p) → ps.length < fuel →
    parseLoop env fuel st (ps.flatMap frame ++ t) =
      match runPayloads env st ps with
      | .error f => .error f
      | .ok st' => if ps ≠ [] ∧ st'.status = eINVALID_LOG then .ok (st', 0) else .ok (st', t.length) := by
  induction ps with
  | nil =>
    intro st fuel _ hf
    obtain ⟨f, rfl⟩ : ∃ f, fuel = f + 1 := ⟨fuel - 1, by simp at hf; omega⟩
    simp only [List.flatMap_nil, List.nil_append, runPayloads]
    rw [parseLoop_partial env f st t ht, if_neg (by simp)]
  | cons p ps ih =>
    intro st fuel hp hf
    simp only [List.length_cons] at hf
    obtain ⟨f, rfl⟩ : ∃ f, fuel = f + 1 := ⟨fuel - 1, by omega⟩
    rw [List.flatMap_cons, List.append_assoc, parseLoop_frame env f st p _ (hp p (by simp))]
    simp only [runPayloads]
    cases st.step env p with
    | error e => rfl
    | ok st' =>
      simp only
      split
      · rename_i hi; simp [hi]
      · rename_i hi
        rw [ih st' f (fun q hq => hp q (by simp [hq])) (by omega)]
        cases hr : runPayloads env st' ps with
        | error e => rfl
        | ok s2 =>
          simp only
          by_cases hps : ps = []
          · subst hps
            simp only [runPayloads, Except.ok.injEq] at hr
            subst hr
            simp [hi]
          · simp [hps]

theorem frames_length (ps : List Bytes) : ps.length ≤ (ps.flatMap frame).length := by
  induction ps with
  | nil => simp
  | cons p ps ih =>
    rw [List.flatMap_cons, List.length_append, frame_length, List.length_cons]; omega

theorem process_no_hang (env : LogEnv) (st : LP) (e : LogEntry) : st.process env e ≠ .error .hang := by
  intro hf
  cases e <;> simp only [LP.process] at hf
  · cases hf
  · cases hf
  · unfold LP.onBlock mkInterval at hf
    repeat' split at hf
    all_goals (first | (cases hf; done) | (rename_i hx; split at hx <;> cases hx; cases hf))
  · cases hf
  · unfold LP.onResize at hf
    repeat' split at hf
    all_goals cases hf
  · cases hf

theorem step_no_hang (env : LogEnv) (st : LP) (p : Bytes) : st.step env p ≠ .error .hang := by
  intro hs
  cases p with
  | nil => cases hs
  | cons ty body =>
    simp only [LP.step] at hs
    split at hs
    · cases hs
    · generalize decodeEntry ty body = o at hs
      cases o with
      | none => cases hs
      | some e =>
        simp only at hs
        split at hs
        · rename_i f hf
          simp only [Except.error.injEq] at hs
          subst hs
          exact process_no_hang env st e hf
        · cases hs

/-- Enough fuel always ends the loop. -/
theorem parseLoop_decompose (env : LogEnv) : ∀ (fuel : Nat) (st : LP) (log : Bytes), log.length < fuel →
    (∃ f, parseLoop env fuel st log = .error f ∧ f ≠ .hang) ∨
    (∃ st', parseLoop env fuel st log = .ok (st', 0) ∧ st'.status = eINVALID_LOG) ∨
    (∃ (ps : List Bytes) (t : Bytes), log = ps.flatMap frame ++ t ∧ (∀ p ∈ ps, PayloadOK p) ∧ Partial t) := by
  intro fuel
  induction fuel with
  | zero => intro st log h; omega
  | succ fuel ih =>
    intro st log hl
    by_cases h0 : log.length < 2
    · exact Or.inr (Or.inr ⟨[], log, by simp, by simp, Or.inl h0⟩)
    by_cases h1 : leNat (log.take 2) = 0 ∨ leNat (log.take 2) ≥ 32768 ∨ leNat (log.take 2) > kMaxEntryLength
    · refine Or.inr (Or.inl ⟨{ st with status := eINVALID_LOG }, ?_, rfl⟩)
      unfold parseLoop
      rw [if_neg (by omega), if_neg h0]
      simp only [if_pos h1]
    by_cases h2 : (log.drop 2).length < leNat (log.take 2)
    · exact Or.inr (Or.inr ⟨[], log, by simp, by simp, Or.inr ⟨by omega, by omega, by omega, h2⟩⟩)
    have hp : PayloadOK ((log.drop 2).take (leNat (log.take 2))) := by
      unfold PayloadOK; rw [List.length_take]; omega
    have hlog : log = frame ((log.drop 2).take (leNat (log.take 2))) ++ log.drop (2 + leNat (log.take 2)) := by
      unfold frame
      have hlen : ((log.drop 2).take (leNat (log.take 2))).length = leNat (log.take 2) := by
        rw [List.length_take]; omega
      rw [hlen]
      have hb : leBytes 2 (leNat (log.take 2)) = log.take 2 := by
        match log, h0 with
        | [], h0 => simp at h0
        | [_], h0 => simp at h0
        | a :: b :: l, _ =>
          have := a.toNat_lt; have := b.toNat_lt
          simp only [List.take_succ_cons, List.take_zero, leNat, leBytes, Nat.mul_zero, Nat.add_zero]
          have e1 : (((a.toNat + 256 * b.toNat : Nat) : Int) % 256).toNat = a.toNat := by omega
          have e2 : ((((a.toNat + 256 * b.toNat : Nat) : Int) / 256) % 256).toNat = b.toNat := by omega
          rw [e1, e2]
          simp
      rw [hb, ← List.drop_drop, List.append_assoc, List.take_append_drop, List.take_append_drop]
    rw [hlog, parseLoop_frame env fuel st _ _ hp]
    cases hs : st.step env ((log.drop 2).take (leNat (log.take 2))) with
    | error f =>
      refine Or.inl ⟨f, rfl, ?_⟩
      rintro rfl
      exact step_no_hang env st _ hs
    | ok st' =>
      simp only
      split
      · rename_i hi; exact Or.inr (Or.inl ⟨st', rfl, hi⟩)
      · rcases ih st' (log.drop (2 + leNat (log.take 2))) (by rw [List.length_drop]; omega) with h | h | ⟨ps, t, h3, h4, h5⟩
        · exact Or.inl h
        · exact Or.inr (Or.inl h)
        · refine Or.inr (Or.inr ⟨(log.drop 2).take (leNat (log.take 2)) :: ps, t, ?_, ?_, h5⟩)
          · rw [List.flatMap_cons, List.append_assoc, ← h3]
          · intro p hp'
            rcases List.mem_cons.1 hp' with rfl | hp'
            · exact hp
            · exact h4 p hp'

/-- A log cut anywhere. -/
theorem cut_frames (ps : List Bytes) (hp : ∀ p ∈ ps, PayloadOK p) : ∀ k, k ≤ (ps.flatMap frame).length →
    ∃ m t, m ≤ ps.length ∧ (ps.flatMap frame).take k = (ps.take m).flatMap frame ++ t ∧ Partial t ∧
      (∀ p, ps[m]? = some p → t.length < (frame p).length) ∧ (ps.length ≤ m → t = []) := by
  induction ps with
  | nil => intro k hk; exact ⟨0, [], by simp, by simp, Or.inl (by simp), by simp, by simp⟩
  | cons p ps ih =>
    intro k hk
    rw [List.flatMap_cons] at hk ⊢
    have hkm : kMaxEntryLength < 32768 := by decide
    have hpo := hp p (by simp)
    unfold PayloadOK at hpo
    by_cases h : k < (frame p).length
    · refine ⟨0, (frame p).take k, by simp, ?_, ?_, ?_, by simp⟩
      · rw [List.take_append_of_le_length (by omega)]; simp
      · by_cases h2 : k < 2
        · left; rw [List.length_take]; omega
        · right
          have h3 : ((frame p).take k).take 2 = (frame p ++ []).take 2 := by
            rw [List.take_take, List.append_nil]; congr 1; omega
          have := (leNat_prefix p [] (by omega)).1
          simp only [h3, this]
          rw [List.length_drop, List.length_take]
          rw [frame_length] at h ⊢
          omega
      · intro q hq
        simp only [List.getElem?_cons_zero, Option.some.injEq] at hq
        subst hq
        rw [List.length_take]; omega
    · obtain ⟨m, t, h1, h2, h3, h4, h5⟩ := ih (fun q hq => hp q (by simp [hq])) (k - (frame p).length)
        (by rw [List.length_append] at hk; omega)
      refine ⟨m + 1, t, by simp; omega, ?_, h3, ?_, ?_⟩
      · rw [List.take_append, List.take_of_length_le (by omega), h2, List.take_succ_cons, List.flatMap_cons,
          List.append_assoc]
      · intro q hq; simp only [List.getElem?_cons_succ] at hq; exact h4 q hq
      · intro h; exact h5 (by simp at h; omega)

end Wdt
