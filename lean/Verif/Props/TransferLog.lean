import Verif.Lemmas.LogParse
import Verif.Props.Chunks
/-
C25-C28, C54: the transfer log.
-/
namespace Wdt

/-! ## C25 -/

/-- Every entry in range is encoded without failure into at most `kMaxEntryLength` bytes:
a 2-byte length, the type and a body that decodes to the entry. -/
theorem C25_entry_roundtrip (e : LogEntry) (h : e.InRange) :
    ∃ b ty body, e.record = .ok b ∧ b.length ≤ kMaxEntryLength ∧ b = leBytes 2 (b.length - 2 : Int) ++ ty :: body ∧
      decodeEntry ty body = some e := by
  refine ⟨frame e.payload, e.type, e.body, record_ok e h, ?_, ?_, decode_body e h⟩
  · rw [frame_length]; have := body_length e h; simp only [LogEntry.payload, List.length_cons]; omega
  · rw [frame_length]
    have : ((e.payload.length + 2 : Nat) : Int) - 2 = e.payload.length := by omega
    rw [this]; rfl

theorem payloadOK (e : LogEntry) (h : e.InRange) : PayloadOK e.payload := by
  have := body_length e h
  simp only [PayloadOK, LogEntry.payload, List.length_cons]; omega

/-- Different entries have different encodings. -/
theorem C25_entry_injective (e e' : LogEntry) (h : e.InRange) (h' : e'.InRange) (he : e.record = e'.record) : e = e' := by
  rw [record_ok e h, record_ok e' h'] at he
  simp only [Except.ok.injEq] at he
  have hk : kMaxEntryLength < 32768 := by decide
  have p1 := leNat_prefix e.payload [] (by have := (payloadOK e h).2; omega)
  have p2 := leNat_prefix e'.payload [] (by have := (payloadOK e' h').2; omega)
  rw [he] at p1
  have hp : e.payload = e'.payload := by
    have := p1.2.symm.trans p2.2
    simpa using this
  have := decodePayload_payload e h
  rw [hp, decodePayload_payload e' h'] at this
  simpa using this.symm

/-- A name that does not fit (longer than `PATH_MAX` by 30 or more) ends the process: the
encoder reports -1, from which a string is constructed.  The receiver never gets there:
the file could not have been opened. -/
theorem C25_long_name_crash (ts i s : Int) (n : Bytes) (h1 : I63 ts) (h2 : I63 i) (h3 : I63 s)
    (hn : kMaxEntryLength ≤ n.length) : LogEntry.record (.fileCreation ts n i s) = .error .check := by
  have hw : Writes kMaxEntryLength ((LogEntry.fileCreation ts n i s).fields kMaxEntryLength)
      (LogEntry.fileCreation ts n i s).body := by
    have v := fun (x : Int) (hx : I63 x) => writes_encodeVarI64C (kMaxEntryLength : Int) (by decide) (by decide) x hx.1
    have s := writes_encodeString (kMaxEntryLength : Int) (by decide) (by decide)
    exact (v _ h1).and ((s _).and ((v _ h2).and (v _ h3)))
  unfold LogEntry.record LogEntry.encode
  rw [if_neg (by decide), storeByte_ok _ _ _ (by decide) (by rw [List.length_replicate]; decide)]
  simp only
  obtain ⟨buf', off', h4, _⟩ := (hw (splice (List.replicate kMaxEntryLength 0) (2 : Int).toNat
    [(LogEntry.fileCreation ts n i s).type]) 3 (by decide) (by decide)
    (by rw [splice_length _ _ _ (by rw [List.length_replicate]; simp [kMaxEntryLength]), List.length_replicate]; exact Int.le_refl _)).2
    (by simp only [LogEntry.body, strBytes, List.length_append]; omega)
  rw [h4]
  simp

example : LogEntry.InRange (.fileCreation 5 (List.replicate 4096 97) 7 (2 ^ 62)) := by
  simp only [LogEntry.InRange, I63, int64Max, List.length_replicate]; omega

example : LogEntry.record (.blockWrite 1 2 300 4) = .ok [6, 0, 2, 1, 2, 172, 2, 4] := by decide +kernel

/-! ## What a log says -/

theorem runPayloads_append (env : LogEnv) (a b : List Bytes) : ∀ (st : LP), runPayloads env st (a ++ b) =
    match runPayloads env st a with
    | .error f => .error f
    | .ok st' => if a ≠ [] ∧ st'.status = eINVALID_LOG then .ok st' else runPayloads env st' b := by
  induction a with
  | nil => intro st; simp [runPayloads]
  | cons p a ih =>
    intro st
    simp only [List.cons_append, runPayloads]
    cases st.step env p with
    | error f => rfl
    | ok s1 =>
      simp only
      by_cases hi : s1.status = eINVALID_LOG
      · rw [if_pos hi, if_pos hi]; simp [hi]
      · rw [if_neg hi, if_neg hi, ih s1]
        cases hr : runPayloads env s1 a with
        | error f => rfl
        | ok s2 =>
          simp only
          cases a with
          | nil => simp only [runPayloads, Except.ok.injEq] at hr; subst hr; simp [hi]
          | cons x a => simp

/-- The outcome of parsing, given what the entries lead to and the length of the tail. -/
def conclude (env : LogEnv) (st : LP) (whole tail : Bytes) : Except Fault ParseOut :=
  if st.status = eINVALID_LOG then .ok { status := eINVALID_LOG, log := whole ++ tail, senderIp := st.senderIp }
  else if tail ≠ [] ∧ !env.parseOnly ∧ !env.truncateOk then
    .ok { status := eINVALID_LOG, log := whole ++ tail, senderIp := st.senderIp }
  else
    let log1 := if env.parseOnly then whole ++ tail else whole
    if st.status ≠ eOK then .ok { status := st.status, log := log1, senderIp := st.senderIp }
    else
      let infos := st.infos.map fun x => { x with chunks := mergeChunks x.chunks }
      if st.invalid = [] then .ok { status := eOK, infos := infos, log := log1, senderIp := st.senderIp }
      else if !env.appendOk then
        .ok { status := eINVALID_LOG, infos := infos, log := log1, senderIp := st.senderIp }
      else match invalidationBytes env.now st.invalid with
        | .error f => .error f
        | .ok bs => .ok { status := eOK, infos := infos, log := log1 ++ bs, senderIp := st.senderIp }

theorem parseLog_frames (env : LogEnv) (ip : Bytes) (ps : List Bytes) (hp : ∀ p ∈ ps, PayloadOK p) (t : Bytes)
    (ht : Partial t) : parseLog env ip (ps.flatMap frame ++ t) =
      match runPayloads env { senderIp := ip } ps with
      | .error f => .error f
      | .ok st => conclude env st (ps.flatMap frame) t := by
  unfold parseLog
  rw [parseLoop_frames env t ht ps _ _ hp (by have := frames_length ps; rw [List.length_append]; omega)]
  cases hr : runPayloads env { senderIp := ip } ps with
  | error f => rfl
  | ok st =>
    simp only
    by_cases hi : ps ≠ [] ∧ st.status = eINVALID_LOG
    · rw [if_pos hi]; simp [conclude, hi.2]
    · rw [if_neg hi]
      unfold conclude
      have htl : (t.length ≠ 0) = (t ≠ []) := by simp
      have htk : (ps.flatMap frame ++ t).take ((ps.flatMap frame ++ t).length - t.length) = ps.flatMap frame := by
        rw [List.length_append, Nat.add_sub_cancel, List.take_left']; rfl
      simp only [htl, htk]
      rfl

theorem parseLog_cases (env : LogEnv) (ip log : Bytes) :
    (∃ f, parseLog env ip log = .error f ∧ f ≠ .hang) ∨
    (∃ out, parseLog env ip log = .ok out ∧ out.status = eINVALID_LOG) ∨
    (∃ (ps : List Bytes) (t : Bytes), log = ps.flatMap frame ++ t ∧ (∀ p ∈ ps, PayloadOK p) ∧ Partial t) := by
  rcases parseLoop_decompose env (log.length + 1) { senderIp := ip } log (by omega) with ⟨f, h1, h2⟩ | ⟨st, h1, h2⟩ | h
  · exact Or.inl ⟨f, by unfold parseLog; rw [h1], h2⟩
  · refine Or.inr (Or.inl ⟨{ status := eINVALID_LOG, log := log, senderIp := st.senderIp }, ?_, rfl⟩)
    unfold parseLog; rw [h1]; simp [h2]
  · exact Or.inr (Or.inr h)

theorem invalidationBytes_eq (now : Int) (hn : I63 now) (l : List Int) (hl : ∀ i ∈ l, I63 i) :
    invalidationBytes now l = .ok ((l.map fun i => (LogEntry.fileInvalidation now i).payload).flatMap frame) := by
  induction l with
  | nil => rfl
  | cons i l ih =>
    unfold invalidationBytes
    rw [record_ok _ (show (LogEntry.fileInvalidation now i).InRange from ⟨hn, hl i (by simp)⟩),
      ih (fun j hj => hl j (by simp [hj]))]
    simp only [List.map_cons, List.flatMap_cons]

theorem records_eq (es : List LogEntry) (h : ∀ e ∈ es, e.InRange) :
    records es = .ok ((es.map LogEntry.payload).flatMap frame) := by
  induction es with
  | nil => rfl
  | cons e es ih =>
    unfold records
    rw [record_ok e (h e (by simp)), ih (fun x hx => h x (by simp [hx]))]
    simp only [List.map_cons, List.flatMap_cons]

theorem payloads_ok (es : List LogEntry) (h : ∀ e ∈ es, e.InRange) : ∀ p ∈ es.map LogEntry.payload, PayloadOK p := by
  intro p hp
  obtain ⟨e, he, rfl⟩ := List.mem_map.1 hp
  exact payloadOK e (h e he)

theorem decoded_entries (es : List LogEntry) (h : ∀ e ∈ es, e.InRange) :
    (es.map LogEntry.payload).filterMap decodePayload = es := by
  induction es with
  | nil => rfl
  | cons e es ih =>
    rw [List.map_cons, List.filterMap_cons_some (decodePayload_payload e (h e (by simp))),
      ih (fun x hx => h x (by simp [hx]))]

/-- `log` consists of these entries followed by an incomplete one (`t`, possibly empty).
Records that cannot be decoded contribute nothing. -/
def LogIs (log : Bytes) (es : List LogEntry) (t : Bytes) : Prop :=
  ∃ ps : List Bytes, log = ps.flatMap frame ++ t ∧ (∀ p ∈ ps, PayloadOK p) ∧ Partial t ∧ es = ps.filterMap decodePayload

theorem partial_nil : Partial [] := Or.inl (by simp)

/-- A log the receiver wrote consists of the entries it wrote. -/
theorem logIs_records (es : List LogEntry) (h : ∀ e ∈ es, e.InRange) (log : Bytes) (hl : records es = .ok log) :
    LogIs log es [] := by
  rw [records_eq es h] at hl
  simp only [Except.ok.injEq] at hl
  exact ⟨es.map LogEntry.payload, by rw [List.append_nil, hl], payloads_ok es h, partial_nil, (decoded_entries es h).symm⟩

/-- The chunk list is what the entries say: for every file that was created, is still
valid and is on disk as required there is one entry with its size on disk and exactly the
positions recorded since its creation, and nothing else. -/
structure Says (env : LogEnv) (es : List LogEntry) (infos : List FileChunksInfo) : Prop where
  ascending : infos.Pairwise fun a b => a.seqId < b.seqId
  sound : ∀ x ∈ infos, ∃ size ranges, Live env es x.seqId x.fileName size ranges ∧
    env.disk x.fileName = some x.fileSize ∧ (env.prealloc = true → size ≤ x.fileSize) ∧
    Separated x.chunks ∧ (∀ p, Covered x.chunks p ↔ Covered ranges p) ∧
    (∀ c ∈ x.chunks, 0 ≤ c.start ∧ c.start ≤ c.stop ∧ c.stop ≤ x.fileSize)
  complete : ∀ i n size ranges d, Live env es i n size ranges → env.disk n = some d →
    (env.prealloc = true → size ≤ d) → ∃ x ∈ infos, x.seqId = i ∧ x.fileName = n ∧ x.fileSize = d

theorem onDisk_iff (env : LogEnv) (n : Bytes) (size d : Int) :
    onDisk env n size = some d ↔ env.disk n = some d ∧ (env.prealloc = true → size ≤ d) := by
  unfold onDisk
  cases env.disk n with
  | none => simp
  | some d' =>
    simp only [Option.some.injEq, Bool.and_eq_true, decide_eq_true_eq]
    split
    · rename_i h
      simp only [reduceCtorEq, false_iff]
      rintro ⟨rfl, h2⟩
      have := h2 h.1; omega
    · rename_i h
      simp only [Option.some.injEq]
      constructor
      · rintro rfl
        exact ⟨rfl, fun hp => by by_contra hc; exact h ⟨hp, by omega⟩⟩
      · rintro ⟨h1, _⟩; exact h1

theorem mergeSorted_bounds (l : List Interval) (a b : Int) (h : ∀ c ∈ l, a ≤ c.start ∧ c.start ≤ c.stop ∧ c.stop ≤ b) :
    ∀ c ∈ mergeSorted l, a ≤ c.start ∧ c.start ≤ c.stop ∧ c.stop ≤ b := by
  have loop : ∀ (cs : List Interval) (cur : Interval), (∀ c ∈ cur :: cs, a ≤ c.start ∧ c.start ≤ c.stop ∧ c.stop ≤ b) →
      ∀ c ∈ mergeLoop cur cs, a ≤ c.start ∧ c.start ≤ c.stop ∧ c.stop ≤ b := by
    intro cs
    induction cs with
    | nil => intro cur h c hc; exact h c (by simpa [mergeLoop] using hc)
    | cons x cs ih =>
      intro cur h c hc
      have hx := h x (by simp)
      have hcur := h cur (by simp)
      simp only [mergeLoop] at hc
      split at hc
      · rcases List.mem_cons.1 hc with rfl | hc
        · exact hcur
        · exact ih x (fun y hy => h y (List.mem_cons_of_mem _ hy)) c hc
      · refine ih _ ?_ c hc
        intro y hy
        rcases List.mem_cons.1 hy with rfl | hy
        · simp only; omega
        · exact h y (by simp [hy])
  cases l with
  | nil => intro c hc; simp [mergeSorted] at hc
  | cons x l => exact loop l x h

theorem LBounds.init (env : LogEnv) (ip : Bytes) : LBounds env { senderIp := ip } :=
  ⟨fun x hx => by simp at hx, fun x hx => by simp at hx⟩

theorem says_of {env : LogEnv} {es : List LogEntry} {st : LP} (hi : LInv env es st) (hb : LBounds env st) :
    Says env es (st.infos.map fun x => { x with chunks := mergeChunks x.chunks }) where
  ascending := by
    rw [List.pairwise_map]; exact hi.asc
  sound := by
    intro y hy
    obtain ⟨x, hx, rfl⟩ := List.mem_map.1 hy
    obtain ⟨sz, h1, h2⟩ := (hi.infos x).1 hx
    obtain ⟨b1, b2, b3⟩ := hb.1 x hx
    have hv : Valid x.chunks := fun c hc => (b3 c hc).2.1
    refine ⟨sz, x.chunks, h1, b2, ((onDisk_iff _ _ _ _).1 h2).2, ?_, ?_, ?_⟩
    · exact (C13_merge_separated _ _ hv (sortIntervals_isSort _)).1
    · intro p; exact C13_merge_covers _ _ hv (sortIntervals_isSort _) p
    · exact mergeSorted_bounds _ 0 x.fileSize
        (fun c hc => b3 c ((sortIntervals_isSort x.chunks).1.mem_iff.1 hc))
  complete := by
    intro i n size ranges d h1 h2 h3
    have := (hi.infos ⟨i, n, d, ranges⟩).2 ⟨size, h1, (onDisk_iff _ _ _ _).2 ⟨h2, h3⟩⟩
    exact ⟨_, List.mem_map.2 ⟨_, this, rfl⟩, rfl, rfl, rfl⟩

theorem nonNeg_filterMap (ps : List Bytes) : ∀ e ∈ ps.filterMap decodePayload, e.NonNeg := by
  intro e he
  obtain ⟨p, _, hp⟩ := List.mem_filterMap.1 he
  exact decodePayload_nonNeg hp

/-- What is known after a parse that did not find the log invalid. -/
theorem parse_state {env : LogEnv} (hpo : env.parseOnly = false) {ip log : Bytes} {out : ParseOut}
    (h : parseLog env ip log = .ok out) (hs : out.status ≠ eINVALID_LOG) :
    ∃ (ps : List Bytes) (t : Bytes) (st : LP), log = ps.flatMap frame ++ t ∧ (∀ p ∈ ps, PayloadOK p) ∧ Partial t ∧
      runPayloads env { senderIp := ip } ps = .ok st ∧ st.status ≠ eINVALID_LOG ∧
      LInv env (ps.filterMap decodePayload) st ∧ LBounds env st ∧
      conclude env st (ps.flatMap frame) t = .ok out := by
  rcases parseLog_cases env ip log with ⟨f, h1, _⟩ | ⟨o, h1, h2⟩ | ⟨ps, t, h1, h2, h3⟩
  · rw [h] at h1; cases h1
  · rw [h] at h1; cases h1; exact absurd h2 hs
  · have hl := parseLog_frames env ip ps h2 t h3
    rw [← h1, h] at hl
    cases hr : runPayloads env { senderIp := ip } ps with
    | error f => rw [hr] at hl; cases hl
    | ok st =>
      rw [hr] at hl
      simp only at hl
      have hst : st.status ≠ eINVALID_LOG := by
        intro hc
        unfold conclude at hl
        rw [if_pos hc] at hl
        simp only [Except.ok.injEq] at hl
        rw [hl] at hs
        exact hs rfl
      have hre := runPayloads_entries env ps _ _ hr hst
      have hli := LInv.run hpo _ [] _ _ (LInv.init env ip) hre hst
      have hbi := LBounds.run hpo _ (nonNeg_filterMap ps) [] _ _ (LInv.init env ip) (LBounds.init env ip) hre hst
      exact ⟨ps, t, st, h1, h2, h3, hr, hst, by simpa using hli, hbi, hl.symm⟩

/-! ## C26 -/

/-- Cutting a log the receiver wrote at any byte: parsing the remainder gives exactly what
parsing the completely present entries gives (status, chunk list, sender address, and the
log afterwards, from which the incomplete tail is gone); no complete entry is lost.  If
the complete entries already make the log invalid, the remainder is invalid too and left
alone. -/
theorem C26_cut (env : LogEnv) (hpo : env.parseOnly = false) (htr : env.truncateOk = true) (ip : Bytes)
    (es : List LogEntry) (hr : ∀ e ∈ es, e.InRange) (log : Bytes) (hlog : records es = .ok log)
    (k : Nat) (hk : k ≤ log.length) :
    ∃ m part, m ≤ es.length ∧ records (es.take m) = .ok part ∧ part.length ≤ k ∧
      (∀ e b, es[m]? = some e → e.record = .ok b → k < part.length + b.length) ∧
      (parseLog env ip (log.take k) = parseLog env ip part ∨
        ∃ s, parseLog env ip part = .ok { status := eINVALID_LOG, log := part, senderIp := s } ∧
          parseLog env ip (log.take k) = .ok { status := eINVALID_LOG, log := log.take k, senderIp := s }) := by
  rw [records_eq es hr] at hlog
  simp only [Except.ok.injEq] at hlog
  subst hlog
  have hok := payloads_ok es hr
  obtain ⟨m, t, hm, ht1, ht2, ht3, _⟩ := cut_frames _ hok k hk
  rw [List.length_map] at hm
  have hrm : ∀ e ∈ es.take m, e.InRange := fun e he => hr e (List.mem_of_mem_take he)
  rw [← List.map_take] at ht1
  have hlen : (((es.take m).map LogEntry.payload).flatMap frame).length + t.length = k := by
    have := congrArg List.length ht1
    rw [List.length_take, List.length_append] at this
    omega
  refine ⟨m, ((es.take m).map LogEntry.payload).flatMap frame, hm, records_eq _ hrm, by omega, ?_, ?_⟩
  · intro e b he hb
    rw [record_ok e (hr e (List.mem_of_getElem? he))] at hb
    simp only [Except.ok.injEq] at hb
    subst hb
    have := ht3 e.payload (by rw [List.getElem?_map, he]; rfl)
    omega
  · rw [ht1, parseLog_frames env ip _ (payloads_ok _ hrm) t ht2]
    have h2 := parseLog_frames env ip _ (payloads_ok _ hrm) [] partial_nil
    rw [List.append_nil] at h2
    rw [h2]
    cases hrun : runPayloads env { senderIp := ip } ((es.take m).map LogEntry.payload) with
    | error f => exact Or.inl rfl
    | ok st =>
      simp only
      by_cases hi : st.status = eINVALID_LOG
      · right
        refine ⟨st.senderIp, ?_, ?_⟩
        · unfold conclude; rw [if_pos hi, List.append_nil]
        · unfold conclude; rw [if_pos hi]
      · left
        unfold conclude
        rw [if_neg hi, if_neg hi]
        simp [htr, hpo]

theorem conclude_log {env : LogEnv} (hpo : env.parseOnly = false) (hnow : I63 env.now) {st : LP} {whole t : Bytes}
    {out : ParseOut} (hb : LBounds env st) (h : conclude env st whole t = .ok out) (hs : out.status ≠ eINVALID_LOG) :
    out.log = whole ++ (if st.status = eOK then
      (st.invalid.map fun i => (LogEntry.fileInvalidation env.now i).payload).flatMap frame else []) ∧
    out.status = st.status ∧ out.senderIp = st.senderIp ∧
    out.infos = (if st.status = eOK then st.infos.map fun x => { x with chunks := mergeChunks x.chunks } else []) := by
  unfold conclude at h
  split at h
  · cases h; exact absurd rfl hs
  split at h
  · cases h; exact absurd rfl hs
  simp only [hpo, Bool.false_eq_true, if_false] at h
  split at h
  · rename_i h1
    rw [if_neg h1, if_neg h1]
    cases h; simp
  · rename_i h1
    rw [ne_eq, Decidable.not_not] at h1
    rw [if_pos h1, if_pos h1, h1]
    split at h
    · rename_i h2
      cases h; simp [h2]
    · split at h
      · cases h; exact absurd rfl hs
      · rw [invalidationBytes_eq env.now hnow st.invalid hb.2] at h
        cases h; simp

/-- Whatever the log contained: if parsing does not find it invalid, the log afterwards is
a sequence of complete entries: those that were there, and invalidations of files that
are not on disk as required.  Nothing but an incomplete tail was removed. -/
theorem C26_clean_boundary (env : LogEnv) (hpo : env.parseOnly = false) (hnow : I63 env.now) (ip log : Bytes)
    (out : ParseOut) (h : parseLog env ip log = .ok out) (hs : out.status ≠ eINVALID_LOG) :
    ∃ (es : List LogEntry) (t : Bytes) (lost : List Int), LogIs log es t ∧
      LogIs out.log (es ++ lost.map (LogEntry.fileInvalidation env.now)) [] ∧
      log.take (log.length - t.length) <+: out.log ∧
      (∀ i ∈ lost, ∃ n size ranges, Live env es i n size ranges ∧
        ∀ d, env.disk n = some d → env.prealloc = true ∧ d < size) := by
  obtain ⟨ps, t, st, h1, h2, h3, h4, h5, h6, h7, h8⟩ := parse_state hpo h hs
  obtain ⟨c1, c2, c3, c4⟩ := conclude_log hpo hnow h7 h8 hs
  refine ⟨ps.filterMap decodePayload, t, if st.status = eOK then st.invalid else [], ⟨ps, h1, h2, h3, rfl⟩, ?_, ?_, ?_⟩
  · rw [c1]
    split
    · refine ⟨ps ++ (st.invalid.map fun i => (LogEntry.fileInvalidation env.now i).payload), ?_, ?_, partial_nil, ?_⟩
      · simp
      · intro p hp
        rcases List.mem_append.1 hp with hp | hp
        · exact h2 p hp
        · obtain ⟨i, hi, rfl⟩ := List.mem_map.1 hp
          exact payloadOK _ ⟨hnow, h7.2 i hi⟩
      · rw [List.filterMap_append]
        congr 1
        have : (st.invalid.map fun i => (LogEntry.fileInvalidation env.now i).payload) =
            (st.invalid.map (LogEntry.fileInvalidation env.now)).map LogEntry.payload := by
          rw [List.map_map]; rfl
        rw [this, decoded_entries]
        intro e he
        obtain ⟨i, hi, rfl⟩ := List.mem_map.1 he
        exact ⟨hnow, h7.2 i hi⟩
    · exact ⟨ps, by simp, h2, partial_nil, by simp⟩
  · rw [c1, h1, List.length_append, Nat.add_sub_cancel, List.take_left' rfl]
    exact List.prefix_append _ _
  · intro i hi
    split at hi
    · obtain ⟨n, sz, ch, hl, ho⟩ := (h6.invalid i).1 hi
      refine ⟨n, sz, ch, hl, ?_⟩
      intro d hd
      simp only [onDisk, hd] at ho
      split at ho
      · rename_i hc; simpa using hc
      · cases ho
    · cases hi

theorem logIs_append {log1 log2 : Bytes} {es1 es2 : List LogEntry} {t : Bytes} (h1 : LogIs log1 es1 [])
    (h2 : LogIs log2 es2 t) : LogIs (log1 ++ log2) (es1 ++ es2) t := by
  obtain ⟨p1, a1, b1, _, d1⟩ := h1
  obtain ⟨p2, a2, b2, c2, d2⟩ := h2
  refine ⟨p1 ++ p2, ?_, ?_, c2, ?_⟩
  · rw [a1, a2]; simp
  · intro p hp
    rcases List.mem_append.1 hp with hp | hp
    · exact b1 p hp
    · exact b2 p hp
  · rw [d1, d2, List.filterMap_append]

/-- The entries of a log are determined by its bytes. -/
theorem logIs_unique {log : Bytes} {es es' : List LogEntry} {t t' : Bytes} (h : LogIs log es t) (h' : LogIs log es' t') :
    es = es' ∧ t = t' := by
  obtain ⟨ps, a1, b1, c1, d1⟩ := h
  obtain ⟨ps', a2, b2, c2, d2⟩ := h'
  have hk : kMaxEntryLength < 32768 := by decide
  have nopart : ∀ (p : Bytes) (rest : Bytes), PayloadOK p → ¬ Partial (frame p ++ rest) := by
    intro p rest hp hpart
    obtain ⟨q1, q2⟩ := leNat_prefix p rest (by have := hp.2; omega)
    rcases hpart with hl | ⟨_, _, _, hl⟩
    · rw [List.length_append, frame_length] at hl; omega
    · rw [q1, q2, List.length_append] at hl; omega
  have key : ∀ (ps ps' : List Bytes), (∀ p ∈ ps, PayloadOK p) → (∀ p ∈ ps', PayloadOK p) →
      ps.flatMap frame ++ t = ps'.flatMap frame ++ t' → ps = ps' ∧ t = t' := by
    intro ps
    induction ps with
    | nil =>
      intro ps' _ hp' he
      cases ps' with
      | nil => exact ⟨rfl, by simpa using he⟩
      | cons q qs =>
        rw [List.flatMap_nil, List.nil_append, List.flatMap_cons, List.append_assoc] at he
        exact absurd (he ▸ c1) (nopart q _ (hp' q (by simp)))
    | cons p ps ih =>
      intro ps' hp hp' he
      cases ps' with
      | nil =>
        rw [List.flatMap_nil, List.nil_append, List.flatMap_cons, List.append_assoc] at he
        exact absurd (he ▸ c2) (nopart p _ (hp p (by simp)))
      | cons q qs =>
        rw [List.flatMap_cons, List.flatMap_cons, List.append_assoc, List.append_assoc] at he
        obtain ⟨q1, q2⟩ := leNat_prefix p (ps.flatMap frame ++ t) (by have := (hp p (by simp)).2; omega)
        obtain ⟨r1, r2⟩ := leNat_prefix q (qs.flatMap frame ++ t') (by have := (hp' q (by simp)).2; omega)
        rw [he] at q1 q2
        have hlen : p.length = q.length := q1.symm.trans r1
        have hrest := q2.symm.trans r2
        obtain ⟨e1, e2⟩ := List.append_inj hrest hlen
        obtain ⟨e3, e4⟩ := ih qs (fun x hx => hp x (by simp [hx])) (fun x hx => hp' x (by simp [hx])) e2
        exact ⟨by rw [e1, e3], e4⟩
  obtain ⟨e1, e2⟩ := key ps ps' b1 b2 (by rw [← a1, ← a2])
  exact ⟨by rw [d1, d2, e1], e2⟩

/-- Appending after a parse continues from a clean boundary: the log then consists of the
old complete entries, the invalidations added by the parser, and the new entries. -/
theorem C26_append_continues (env : LogEnv) (hpo : env.parseOnly = false) (hnow : I63 env.now) (ip log : Bytes)
    (out : ParseOut) (h : parseLog env ip log = .ok out) (hs : out.status ≠ eINVALID_LOG)
    (new : List LogEntry) (hnew : ∀ e ∈ new, e.InRange) (b : Bytes) (hb : records new = .ok b) :
    ∃ (es : List LogEntry) (t : Bytes) (lost : List Int), LogIs log es t ∧
      LogIs (out.log ++ b) (es ++ lost.map (LogEntry.fileInvalidation env.now) ++ new) [] := by
  obtain ⟨es, t, lost, h1, h2, _, _⟩ := C26_clean_boundary env hpo hnow ip log out h hs
  exact ⟨es, t, lost, h1, logIs_append h2 (logIs_records new hnew b hb)⟩

/-- The parser always ends: no log makes it loop for ever. -/
theorem C26_always_ends (env : LogEnv) (hpo : env.parseOnly = false) (hnow : I63 env.now) (ip log : Bytes) :
    parseLog env ip log ≠ .error .hang := by
  intro hc
  rcases parseLoop_decompose env (log.length + 1) { senderIp := ip } log (by omega) with ⟨f, h1, h2⟩ | ⟨st, h1, h2⟩ | h
  · unfold parseLog at hc; rw [h1] at hc; cases hc; exact h2 rfl
  · unfold parseLog at hc; rw [h1] at hc; simp [h2] at hc
  · obtain ⟨ps, t, h1, h2, h3⟩ := h
    rw [h1, parseLog_frames env ip ps h2 t h3] at hc
    have hrun : ∀ (ps : List Bytes) (st : LP), runPayloads env st ps ≠ .error .hang := by
      intro ps
      induction ps with
      | nil => intro st hh; cases hh
      | cons p ps ih =>
        intro st hh
        simp only [runPayloads] at hh
        cases hst : st.step env p with
        | error f =>
          rw [hst] at hh; simp only [Except.error.injEq] at hh
          exact step_no_hang env st p (hh ▸ hst)
        | ok s1 =>
          rw [hst] at hh; simp only at hh
          split at hh
          · cases hh
          · exact ih s1 hh
    cases hr : runPayloads env { senderIp := ip } ps with
    | error f => rw [hr] at hc; simp only [Except.error.injEq] at hc; exact hrun _ _ (hc ▸ hr)
    | ok st =>
      rw [hr] at hc
      simp only at hc
      by_cases hi : st.status = eINVALID_LOG
      · unfold conclude at hc; rw [if_pos hi] at hc; cases hc
      · have hb := LBounds.run hpo _ (nonNeg_filterMap ps) [] _ _ (LInv.init env ip) (LBounds.init env ip)
          (runPayloads_entries env ps _ _ hr hi) hi
        unfold conclude at hc
        rw [invalidationBytes_eq env.now hnow st.invalid hb.2] at hc
        simp only at hc
        repeat' split at hc
        all_goals cases hc

/-! ## C27 -/

/-- Whatever the log contained: a chunk list delivered with status OK is exactly what the
complete entries of the log say. -/
theorem C27_parse_says (env : LogEnv) (hpo : env.parseOnly = false) (hnow : I63 env.now) (ip log : Bytes)
    (out : ParseOut) (h : parseLog env ip log = .ok out) (hs : out.status = eOK) :
    ∃ es t, LogIs log es t ∧ inDoubt env es = false ∧ Says env es out.infos := by
  have hs' : out.status ≠ eINVALID_LOG := by rw [hs]; decide
  obtain ⟨ps, t, st, h1, h2, h3, h4, h5, h6, h7, h8⟩ := parse_state hpo h hs'
  obtain ⟨c1, c2, c3, c4⟩ := conclude_log hpo hnow h7 h8 hs'
  refine ⟨ps.filterMap decodePayload, t, ⟨ps, h1, h2, h3, rfl⟩, ?_, ?_⟩
  · have := h6.status
    rw [← c2, hs] at this
    by_contra hc
    rw [if_pos (by simpa using hc)] at this
    exact absurd this (by decide)
  · rw [c4, ← c2, if_pos hs]
    exact says_of h6 h7

/-- For a log the receiver wrote itself: the chunk list is what the written entries say. -/
theorem C27_written_says (env : LogEnv) (hpo : env.parseOnly = false) (hnow : I63 env.now) (ip log : Bytes)
    (es : List LogEntry) (hr : ∀ e ∈ es, e.InRange) (hlog : records es = .ok log)
    (out : ParseOut) (h : parseLog env ip log = .ok out) (hs : out.status = eOK) : Says env es out.infos := by
  obtain ⟨es', t, h1, _, h2⟩ := C27_parse_says env hpo hnow ip log out h hs
  obtain ⟨rfl, _⟩ := logIs_unique h1 (logIs_records es hr log hlog)
  exact h2

/-- A chunk list delivered with any other status is either empty or still what the log
says (when the invalidation entries could not be written). -/
theorem C27_never_unrecorded (env : LogEnv) (hpo : env.parseOnly = false) (ip log : Bytes)
    (out : ParseOut) (h : parseLog env ip log = .ok out) :
    out.infos = [] ∨ ∃ es t, LogIs log es t ∧ Says env es out.infos := by
  rcases parseLoop_decompose env (log.length + 1) { senderIp := ip } log (by omega) with ⟨f, h1, _⟩ | ⟨st, h1, h2⟩ | hd
  · unfold parseLog at h; rw [h1] at h; cases h
  · unfold parseLog at h; rw [h1] at h; simp only [h2, if_true] at h; cases h; exact Or.inl rfl
  · obtain ⟨ps, t, h1, h2, h3⟩ := hd
    rw [h1, parseLog_frames env ip ps h2 t h3] at h
    cases hr : runPayloads env { senderIp := ip } ps with
    | error f => rw [hr] at h; cases h
    | ok st =>
      rw [hr] at h
      simp only at h
      by_cases hi : st.status = eINVALID_LOG
      · unfold conclude at h; rw [if_pos hi] at h; cases h; exact Or.inl rfl
      · have hre := runPayloads_entries env ps _ _ hr hi
        have hli := LInv.run hpo _ [] _ _ (LInv.init env ip) hre hi
        have hb := LBounds.run hpo _ (nonNeg_filterMap ps) [] _ _ (LInv.init env ip) (LBounds.init env ip) hre hi
        have hsay := says_of hli hb
        rw [List.nil_append] at hsay
        have goal2 : ∀ o : ParseOut, o.infos = (st.infos.map fun x => { x with chunks := mergeChunks x.chunks }) →
            o.infos = [] ∨ ∃ es t', LogIs log es t' ∧ Says env es o.infos := by
          intro o ho
          exact Or.inr ⟨ps.filterMap decodePayload, t, ⟨ps, h1, h2, h3, rfl⟩, ho ▸ hsay⟩
        unfold conclude at h
        rw [if_neg hi] at h
        split at h
        · cases h; exact Or.inl rfl
        simp only at h
        split at h
        · cases h; exact Or.inl rfl
        split at h
        · cases h; exact goal2 _ rfl
        split at h
        · cases h; exact goal2 _ rfl
        split at h
        · cases h
        · cases h; exact goal2 _ rfl

/-! ### Parsing again -/

/-- Files are known only after a header, and not in size based resumption. -/
def LHdr (env : LogEnv) (st : LP) : Prop :=
  (st.infos = [] ∧ st.invalid = []) ∨ (st.headerParsed = true ∧ env.dirTree = false)

theorem LHdr.step {env : LogEnv} (hpo : env.parseOnly = false) {st st' : LP} (hh : LHdr env st)
    (e : LogEntry) (hs : st.stepEntry env e = .ok st') (hn : st'.status ≠ eINVALID_LOG) : LHdr env st' := by
  unfold LP.stepEntry at hs
  split at hs
  · cases hs; exact hh
  cases hp : st.process env e with
  | error f => rw [hp] at hs; cases hs
  | ok s1 =>
    rw [hp] at hs
    simp only [Except.ok.injEq] at hs
    subst hs
    by_cases hinc : s1.status = eINCONSISTENT_DIRECTORY
    · left; simp [LP.settle, hinc]
    rw [settle_of hinc] at hn ⊢
    cases e with
    | header ts v r s c =>
      simp only [LP.process, LP.onHeader, Except.ok.injEq, hpo] at hp
      subst hp
      split at hn
      · exact absurd rfl hn
      rename_i h1
      split at hn
      · exact absurd rfl hn
      rename_i h2
      simp only [if_neg h1, if_neg h2, Bool.false_eq_true, if_false] at hinc ⊢
      split at hinc
      · exact absurd rfl hinc
      rename_i h3
      split at hinc
      · exact absurd rfl hinc
      rename_i h4
      rw [if_neg h3, if_neg h4]
      rcases hh with hh | hh
      · exact Or.inl hh
      · exact Or.inr ⟨rfl, hh.2⟩
    | dirInvalidation ts =>
      simp only [LP.process, LP.onDirInvalidation, Except.ok.injEq, hpo] at hp
      subst hp
      exact absurd rfl hinc
    | fileInvalidation ts i =>
      simp only [LP.process, LP.onInvalidation, Except.ok.injEq, hpo] at hp
      subst hp
      split at hn
      · exact absurd rfl hn
      rename_i h1
      split at hn
      · rename_i h2; cases h2
      split at hn
      · exact absurd rfl hn
      rename_i h2
      rw [if_neg h1, if_neg (by simp), if_neg h2]
      refine Or.inr ?_
      split
      · exact ⟨by simpa using h1, by simpa using h2⟩
      · exact ⟨by simpa using h1, by simpa using h2⟩
    | fileCreation ts n i size =>
      simp only [LP.process, LP.onCreation, Except.ok.injEq, hpo] at hp
      subst hp
      split at hn
      · exact absurd rfl hn
      rename_i h1
      split at hn
      · rename_i h2; cases h2
      split at hn
      · exact absurd rfl hn
      rename_i h2
      rw [if_neg h1, if_neg (by simp), if_neg h2]
      refine Or.inr ?_
      repeat' split
      all_goals exact ⟨by simpa using h1, by simpa using h2⟩
    | fileResize ts i size =>
      simp only [LP.process] at hp
      rcases onResize_ok hpo hp with h1 | ⟨_, h2, h3⟩
      · exact absurd h1 hn
      · unfold LP.onResize at hp
        split at hp
        · cases hp; exact absurd rfl hn
        rename_i g1
        split at hp
        · rename_i g; rw [hpo] at g; cases g
        split at hp
        · cases hp; exact absurd rfl hn
        rename_i g2
        refine Or.inr ?_
        repeat' split at hp
        all_goals (cases hp <;> exact ⟨by simpa using g1, by simpa using g2⟩)
    | blockWrite ts i off size =>
      simp only [LP.process] at hp
      unfold LP.onBlock at hp
      split at hp
      · cases hp; exact absurd rfl hn
      rename_i g1
      split at hp
      · rename_i g; rw [hpo] at g; cases g
      split at hp
      · cases hp; exact absurd rfl hn
      rename_i g2
      refine Or.inr ?_
      repeat' split at hp
      all_goals (cases hp <;> exact ⟨by simpa using g1, by simpa using g2⟩)

theorem LHdr.run {env : LogEnv} (hpo : env.parseOnly = false) (es : List LogEntry) :
    ∀ (st st' : LP), LHdr env st → runEntries env st es = .ok st' → st'.status ≠ eINVALID_LOG → LHdr env st' := by
  induction es with
  | nil =>
    intro st st' h hr _
    simp only [runEntries, Except.ok.injEq] at hr
    subst hr
    exact h
  | cons e es ih =>
    intro st st' h hr hn
    simp only [runEntries] at hr
    cases hs : st.stepEntry env e with
    | error f => simp only [hs] at hr; cases hr
    | ok s1 =>
      simp only [hs] at hr
      split at hr
      · rename_i hi
        simp only [Except.ok.injEq] at hr; subst hr; exact absurd hi hn
      · rename_i hi
        exact ih s1 st' (h.step hpo e hs hi) hr hn

theorem LInv.disjoint {env : LogEnv} {es : List LogEntry} {st : LP} (h : LInv env es st) :
    ∀ x ∈ st.infos, x.seqId ∉ st.invalid := by
  intro x hx hi
  obtain ⟨sz, h1, h2⟩ := (h.infos x).1 hx
  obtain ⟨n, sz', ch, h3, h4⟩ := (h.invalid _).1 hi
  obtain ⟨rfl, rfl, _⟩ := live_unique env es _ _ _ _ _ _ _ h1 h3
  rw [h2] at h4; cases h4

/-- Reading back the invalidations the parser wrote leaves no lost files. -/
theorem run_invalidations (env : LogEnv) (hpo : env.parseOnly = false) (hdt : env.dirTree = false) (now : Int) (st : LP)
    (hh : st.headerParsed = true) (hst : st.status = eOK) (l : List Int) : ∀ (_ : l.Nodup) (_ : ∀ x ∈ st.infos, x.seqId ∉ l),
    runEntries env { st with invalid := l } (l.map (LogEntry.fileInvalidation now)) = .ok { st with invalid := [] } := by
  induction l with
  | nil => intro _ _; rfl
  | cons i l ih =>
    intro hnd hdj
    rw [List.nodup_cons] at hnd
    have hf1 : st.infos.filter (fun x => decide (x.seqId ≠ i)) = st.infos := by
      rw [List.filter_eq_self]
      intro x hx
      have := hdj x hx
      simp only [List.mem_cons, not_or] at this
      simp [this.1]
    have hf2 : (i :: l).filter (fun x => decide (x ≠ i)) = l := by
      rw [List.filter_cons, if_neg (by simp), List.filter_eq_self]
      intro x hx
      have : x ≠ i := fun hc => hnd.1 (hc ▸ hx)
      simp [this]
    have hstep : LP.stepEntry env { st with invalid := i :: l } (.fileInvalidation now i) = .ok { st with invalid := l } := by
      unfold LP.stepEntry
      rw [if_neg (by simp only [hst]; exact fun hc => absurd hc.1 (by decide))]
      simp only [LP.process, LP.onInvalidation, hh, hpo, hdt, Bool.not_true, Bool.false_eq_true, if_false, hf1, hf2]
      rw [if_neg (by simp)]
      rw [settle_of (by show eOK ≠ _; decide)]
      rw [← hst]
    simp only [List.map_cons, runEntries, hstep]
    rw [if_neg (by simp only [hst]; decide)]
    exact ih hnd.2 (fun x hx hc => hdj x hx (by simp [hc]))

/-- Parsing again, with the disk unchanged, gives the same chunk list and leaves the log
alone: the log the parser left is a fixed point. -/
theorem C27_reparse_same (env : LogEnv) (hpo : env.parseOnly = false) (hnow : I63 env.now) (ip log : Bytes)
    (out : ParseOut) (h : parseLog env ip log = .ok out) (hs : out.status = eOK) :
    parseLog env ip out.log = .ok out := by
  have hs' : out.status ≠ eINVALID_LOG := by rw [hs]; decide
  obtain ⟨ps, t, st, h1, h2, h3, h4, h5, h6, h7, h8⟩ := parse_state hpo h hs'
  obtain ⟨c1, c2, c3, c4⟩ := conclude_log hpo hnow h7 h8 hs'
  have hst : st.status = eOK := by rw [← c2, hs]
  rw [if_pos hst] at c1 c4
  have hinv : (st.invalid.map fun i => (LogEntry.fileInvalidation env.now i).payload) =
      (st.invalid.map (LogEntry.fileInvalidation env.now)).map LogEntry.payload := by
    rw [List.map_map]; rfl
  have hir : ∀ e ∈ st.invalid.map (LogEntry.fileInvalidation env.now), e.InRange := by
    intro e he
    obtain ⟨i, hi, rfl⟩ := List.mem_map.1 he
    exact ⟨hnow, h7.2 i hi⟩
  have hrun : runPayloads env st ((st.invalid.map (LogEntry.fileInvalidation env.now)).map LogEntry.payload) =
      .ok { st with invalid := [] } := by
    rw [runEntries_payloads env _ hir]
    have hhdr := LHdr.run hpo _ _ _ (Or.inl ⟨rfl, rfl⟩) (runPayloads_entries env ps _ _ h4 h5) h5
    rcases hhdr with ⟨e1, e2⟩ | ⟨e1, e2⟩
    · rw [e2]
      simp only [List.map_nil, runEntries]
      rw [← e2]
    · exact run_invalidations env hpo e2 env.now st e1 hst st.invalid h6.nodup h6.disjoint
  have hlog : out.log = (ps ++ (st.invalid.map (LogEntry.fileInvalidation env.now)).map LogEntry.payload).flatMap frame ++ [] := by
    rw [c1, hinv]; simp
  rw [hlog, parseLog_frames env ip _ ?_ [] partial_nil, runPayloads_append, h4]
  · simp only
    rw [if_neg (by simp [h5]), hrun]
    simp only
    unfold conclude
    simp only [hst, hpo]
    rw [if_neg (by decide), if_neg (by simp), if_neg (by simp)]
    simp only [if_true]
    congr 1
    cases out
    simp only [ParseOut.mk.injEq]
    simp only at hs c1 c3 c4 hlog
    refine ⟨hs.symm, c4.symm, ?_, c3.symm⟩
    rw [hlog, List.append_nil]; rfl
  · intro p hp
    rcases List.mem_append.1 hp with hp | hp
    · exact h2 p hp
    · exact payloads_ok _ hir p hp

/-! ## C28 -/

theorem insInfo_last (x : FileChunksInfo) (l : List FileChunksInfo) (h : ∀ y ∈ l, y.seqId < x.seqId) :
    insInfo x l = l ++ [x] := by
  induction l with
  | nil => rfl
  | cons y l ih =>
    have := h y (by simp)
    simp only [insInfo]
    rw [if_neg (by omega), ih (fun z hz => h z (by simp [hz]))]
    rfl

theorem addChunk_last (i : Int) (c : Interval) (l : List FileChunksInfo) (x : FileChunksInfo) (hx : x.seqId = i)
    (h : ∀ y ∈ l, y.seqId ≠ i) : addChunk i c (l ++ [x]) = l ++ [{ x with chunks := x.chunks ++ [c] }] := by
  unfold addChunk
  rw [List.map_append]
  congr 1
  · rw [List.map_congr_left (g := id), List.map_id]
    intro y hy
    rw [if_neg (h y hy)]; rfl
  · simp [hx]

/-- Reading the entries that compaction writes for files `l`, after files `done`. -/
theorem run_compacted (env : LogEnv) (hpo : env.parseOnly = false) (hdt : env.dirTree = false) (now : Int)
    (l : List FileChunksInfo) : ∀ (done : List FileChunksInfo) (st : LP),
    st.infos = done → st.invalid = [] → st.headerParsed = true → st.status = eOK →
    Ascending (done ++ l) →
    (∀ x ∈ l, env.disk x.fileName = some x.fileSize ∧ I63 x.fileSize ∧ x.chunks = [⟨0, x.fileSize⟩]) →
    ∃ st', runEntries env st (l.flatMap (compactEntries now)) = .ok st' ∧ st'.infos = done ++ l ∧ st'.invalid = [] ∧
      st'.status = eOK ∧ st'.senderIp = st.senderIp := by
  induction l with
  | nil => intro done st h1 h2 h3 h4 _ _; exact ⟨st, rfl, by simpa using h1, h2, h4, rfl⟩
  | cons x l ih =>
    intro done st h1 h2 h3 h4 h5 h6
    obtain ⟨d1, d2, d3⟩ := h6 x (by simp)
    have hlt : ∀ y ∈ done, y.seqId < x.seqId := by
      intro y hy
      unfold Ascending at h5
      rw [List.pairwise_append] at h5
      exact h5.2.2 y hy x (by simp)
    have hfind : st.find x.seqId = none := by
      rw [find_none, h1]
      intro y hy; have := hlt y hy; omega
    -- creation
    obtain ⟨s1, hs1, a1, a2, a3, a4, a5⟩ : ∃ s1, st.stepEntry env (.fileCreation now x.fileName x.seqId x.fileSize) = .ok s1 ∧
        s1.infos = done ++ [⟨x.seqId, x.fileName, x.fileSize, []⟩] ∧ s1.invalid = [] ∧ s1.headerParsed = true ∧
        s1.status = eOK ∧ s1.senderIp = st.senderIp := by
      unfold LP.stepEntry
      rw [if_neg (by rw [h4]; exact fun hc => absurd hc.1 (by decide))]
      simp only [LP.process, LP.onCreation, h3, hpo, hdt, hfind, h2, d1, Bool.not_true, Bool.false_eq_true, if_false,
        Option.isSome_none, List.contains_nil, Bool.or_self, Int.lt_irrefl, decide_false, Bool.and_false]
      refine ⟨_, rfl, ?_⟩
      rw [settle_of (by show eOK ≠ _; decide)]
      refine ⟨?_, rfl, rfl, rfl, rfl⟩
      simp only [h1]
      exact insInfo_last _ _ hlt
    -- block
    obtain ⟨s2, hs2, b1, b2, b3, b4, b5⟩ : ∃ s2, s1.stepEntry env (.blockWrite now x.seqId 0 x.fileSize) = .ok s2 ∧
        s2.infos = done ++ [x] ∧ s2.invalid = [] ∧ s2.headerParsed = true ∧
        s2.status = eOK ∧ s2.senderIp = st.senderIp := by
      have hf : s1.find x.seqId = some ⟨x.seqId, x.fileName, x.fileSize, []⟩ := by
        unfold LP.find
        rw [a1, List.find?_append]
        have : done.find? (fun y => y.seqId == x.seqId) = none := by
          rw [List.find?_eq_none]
          intro y hy; have := hlt y hy; simp; omega
        rw [this]; simp
      unfold LP.stepEntry
      rw [if_neg (by rw [a4]; exact fun hc => absurd hc.1 (by decide))]
      simp only [LP.process, LP.onBlock, a3, hpo, hdt, hf, a2, Bool.not_true, Bool.false_eq_true, if_false,
        List.contains_nil, Int.zero_add, mkInterval]
      rw [if_neg (by have := d2.2; omega), if_neg (by omega), if_pos (by have := d2.1; omega)]
      simp only
      refine ⟨_, rfl, ?_⟩
      rw [settle_of (by show eOK ≠ _; decide)]
      refine ⟨?_, rfl, rfl, rfl, a5⟩
      rw [a1]
      simp only
      rw [addChunk_last x.seqId _ _ ⟨x.seqId, x.fileName, x.fileSize, []⟩ rfl (fun y hy => by have := hlt y hy; omega)]
      simp only [List.nil_append]
      rw [← d3]
    obtain ⟨st', c1, c2, c3, c4, c5⟩ := ih (done ++ [x]) s2 b1 b2 b3 b4 (by simpa using h5)
      (fun y hy => h6 y (by simp [hy]))
    refine ⟨st', ?_, by simpa using c2, c3, c4, by rw [c5, b5]⟩
    rw [List.flatMap_cons]
    simp only [compactEntries, List.cons_append, List.nil_append, runEntries, hs1, hs2]
    rw [if_neg (by rw [a4]; decide), if_neg (by rw [b4]; decide)]
    exact c1

theorem single_whole {l : List Interval} {size : Int} (hb : ∀ c ∈ l, 0 ≤ c.start ∧ c.start ≤ c.stop ∧ c.stop ≤ size)
    (h1 : l.length = 1) (h2 : totalChunkSize l = size) : l = [⟨0, size⟩] := by
  match l, h1 with
  | [c], _ =>
    have := hb c (by simp)
    simp only [totalChunkSize, List.map_cons, List.map_nil, List.foldl_cons, List.foldl_nil, Interval.size] at h2
    cases c
    simp only at *
    congr 1
    simp only [Interval.mk.injEq]
    omega

/-- Facts about the chunk list of a parse with status OK. -/
theorem parsed_infos {env : LogEnv} (hpo : env.parseOnly = false) (hnow : I63 env.now) {ip log : Bytes} {out : ParseOut}
    (h : parseLog env ip log = .ok out) (hs : out.status = eOK) :
    Ascending out.infos ∧ (out.infos = [] ∨ env.dirTree = false) ∧
    ∀ x ∈ out.infos, I63 x.seqId ∧ env.disk x.fileName = some x.fileSize ∧
      ∀ c ∈ x.chunks, 0 ≤ c.start ∧ c.start ≤ c.stop ∧ c.stop ≤ x.fileSize := by
  have hs' : out.status ≠ eINVALID_LOG := by rw [hs]; decide
  obtain ⟨ps, t, st, h1, h2, h3, h4, h5, h6, h7, h8⟩ := parse_state hpo h hs'
  obtain ⟨c1, c2, c3, c4⟩ := conclude_log hpo hnow h7 h8 hs'
  have hsay := says_of h6 h7
  rw [if_pos (by rw [← c2, hs])] at c4
  rw [← c4] at hsay
  refine ⟨hsay.ascending, ?_, ?_⟩
  · have hhdr := LHdr.run hpo _ _ _ (Or.inl ⟨rfl, rfl⟩) (runPayloads_entries env ps _ _ h4 h5) h5
    rcases hhdr with ⟨e1, _⟩ | ⟨_, e2⟩
    · left; rw [c4, e1]; rfl
    · exact Or.inr e2
  · intro x hx
    obtain ⟨_, _, _, q1, _, _, _, q2⟩ := hsay.sound x hx
    refine ⟨?_, q1, q2⟩
    rw [c4] at hx
    obtain ⟨y, hy, rfl⟩ := List.mem_map.1 hx
    exact (h7.1 y hy).1

/-- Entries of a compacted log. -/
def compacted (env : LogEnv) (out : ParseOut) : List LogEntry :=
  .header env.now WLOG_VERSION env.recoveryId out.senderIp env.config :: out.infos.flatMap (compactEntries env.now)

theorem compacted_inRange {env : LogEnv} (hpo : env.parseOnly = false) (hnow : I63 env.now) (hcfg : I63 env.config)
    (hdisk : ∀ n d, env.disk n = some d → n.length ≤ 4096 ∧ I63 d) {ip log : Bytes} {out : ParseOut}
    (h : parseLog env ip log = .ok out) (hs : out.status = eOK)
    (hlen : env.recoveryId.length + out.senderIp.length ≤ 4095) : ∀ e ∈ compacted env out, e.InRange := by
  obtain ⟨_, _, p2⟩ := parsed_infos hpo hnow h hs
  intro e he
  rcases List.mem_cons.1 he with rfl | he
  · exact ⟨hnow, by simp only [WLOG_VERSION]; decide, hcfg, hlen⟩
  · obtain ⟨x, hx, he⟩ := List.mem_flatMap.1 he
    obtain ⟨q1, q2, _⟩ := p2 x hx
    obtain ⟨r1, r2⟩ := hdisk _ _ q2
    simp only [compactEntries, List.mem_cons, List.not_mem_nil, or_false] at he
    rcases he with rfl | rfl
    · exact ⟨hnow, q1, r2, r1⟩
    · exact ⟨hnow, q1, by simp only [I63, int64Max]; decide, r2⟩

/-- The compacted log says the same as the log it replaces: same chunk list, same sender
address, nothing left to repair.  Names on disk have at most `PATH_MAX` bytes. -/
theorem C28_compact_same (env : LogEnv) (hpo : env.parseOnly = false) (hnow : I63 env.now) (hcfg : I63 env.config)
    (hdisk : ∀ n d, env.disk n = some d → n.length ≤ 4096 ∧ I63 d) (ip log b : Bytes) (out : ParseOut)
    (h : compactLog env ip log = .ok (some b, out))
    (hlen : env.recoveryId.length + out.senderIp.length ≤ 4095) (hip : out.senderIp ≠ []) (ip' : Bytes) :
    parseLog env ip log = .ok out ∧ out.status = eOK ∧
    parseLog env ip' b = .ok { status := eOK, infos := out.infos, log := b, senderIp := out.senderIp } := by
  unfold compactLog at h
  cases hp : parseLog env ip log with
  | error f => rw [hp] at h; cases h
  | ok o =>
    rw [hp] at h
    simp only at h
    split at h
    · cases h
    rename_i hs
    rw [ne_eq, Decidable.not_not] at hs
    split at h
    · rename_i hall
      have ho : o = out := by
        split at h
        · cases h
        · cases h; rfl
      subst ho
      have hir := compacted_inRange hpo hnow hcfg hdisk hp hs hlen
      have hrec := records_eq _ hir
      unfold compacted at hrec
      rw [hrec] at h
      simp only [Except.ok.injEq, Prod.mk.injEq, Option.some.injEq, and_true] at h
      refine ⟨rfl, hs, ?_⟩
      obtain ⟨p1, p3, p2⟩ := parsed_infos hpo hnow hp hs
      have hfull : ∀ x ∈ o.infos, env.disk x.fileName = some x.fileSize ∧ I63 x.fileSize ∧ x.chunks = [⟨0, x.fileSize⟩] := by
        intro x hx
        obtain ⟨q1, q2, q3⟩ := p2 x hx
        rw [List.all_eq_true] at hall
        have := hall x hx
        simp only [Bool.and_eq_true, beq_iff_eq] at this
        exact ⟨q2, (hdisk _ _ q2).2, single_whole q3 this.1 this.2⟩
      have hmerge : (o.infos.map fun x => { x with chunks := mergeChunks x.chunks }) = o.infos := by
        rw [List.map_congr_left (g := id), List.map_id]
        intro x hx
        have hm : mergeChunks x.chunks = x.chunks := by
          rw [(hfull x hx).2.2]
          simp [mergeChunks, sortIntervals, mergeSorted, mergeLoop]
        cases x
        simp only at hm
        simp [hm]
      have hhead : LP.stepEntry env { senderIp := ip' } (.header env.now WLOG_VERSION env.recoveryId o.senderIp env.config) =
          .ok { senderIp := o.senderIp, headerParsed := true } := by
        unfold LP.stepEntry
        rw [if_neg (by exact fun hc => absurd hc.1 (by show eOK ≠ _; decide))]
        simp only [LP.process, LP.onHeader, hpo, hip, ne_eq, not_true_eq_false, if_false, Bool.false_eq_true]
        rfl
      have hrun : ∃ st', runEntries env { senderIp := ip' } (compacted env o) = .ok st' ∧ st'.infos = o.infos ∧
          st'.invalid = [] ∧ st'.status = eOK ∧ st'.senderIp = o.senderIp := by
        unfold compacted
        simp only [runEntries, hhead]
        rw [if_neg (by show eOK ≠ _; decide)]
        rcases p3 with p3 | hdt
        · rw [p3]; exact ⟨_, rfl, rfl, rfl, rfl, rfl⟩
        · obtain ⟨st', a1, a2, a3, a4, a5⟩ := run_compacted env hpo hdt env.now o.infos []
            { senderIp := o.senderIp, headerParsed := true } rfl rfl rfl rfl p1 hfull
          exact ⟨st', a1, a2, a3, a4, a5⟩
      obtain ⟨st', a1, a2, a3, a4, a5⟩ := hrun
      have hpl := parseLog_frames env ip' _ (payloads_ok _ hir) [] partial_nil
      rw [List.append_nil] at hpl
      have hb : ((compacted env o).map LogEntry.payload).flatMap frame = b := h
      rw [hb, runEntries_payloads env _ hir, a1] at hpl
      rw [hpl]
      simp only [conclude, a2, a3, a4, a5, hpo, hmerge]
      rw [if_neg (by decide), if_neg (by simp)]
      simp
    · cases h

/-- Compaction succeeds whenever the log is valid and every file is complete. -/
theorem C28_compacts_complete (env : LogEnv) (hpo : env.parseOnly = false) (hnow : I63 env.now) (hcfg : I63 env.config)
    (hdisk : ∀ n d, env.disk n = some d → n.length ≤ 4096 ∧ I63 d) (ip log : Bytes) (out : ParseOut)
    (hp : parseLog env ip log = .ok out) (hs : out.status = eOK)
    (hlen : env.recoveryId.length + out.senderIp.length ≤ 4095)
    (hfull : ∀ x ∈ out.infos, x.chunks = [⟨0, x.fileSize⟩]) : ∃ b, compactLog env ip log = .ok (some b, out) := by
  unfold compactLog
  rw [hp]
  simp only [hs, ne_eq, not_true_eq_false, if_false]
  rw [if_pos]
  · have hrec := records_eq _ (compacted_inRange hpo hnow hcfg hdisk hp hs hlen)
    unfold compacted at hrec
    rw [hrec]
    exact ⟨_, rfl⟩
  · rw [List.all_eq_true]
    intro x hx
    rw [hfull x hx]
    simp [totalChunkSize, Interval.size]

/-- A sender address is needed: compacting an empty log without one produces a log that
is invalid from then on. -/
theorem C28_no_sender_invalid (env : LogEnv) (hnow : I63 env.now) (hcfg : I63 env.config)
    (hlen : env.recoveryId.length ≤ 4095) : ∃ b, compactLog env [] [] = .ok (some b, { status := eOK, log := [], senderIp := [] }) ∧
      parseLog env [] b = .ok { status := eINVALID_LOG, log := b, senderIp := [] } := by
  have hir : ∀ e ∈ [LogEntry.header env.now WLOG_VERSION env.recoveryId [] env.config], e.InRange := by
    intro e he
    simp only [List.mem_singleton] at he
    subst he
    exact ⟨hnow, by simp only [WLOG_VERSION]; decide, hcfg, by simpa using hlen⟩
  have hrec := records_eq _ hir
  have hpl := parseLog_frames env [] _ (payloads_ok _ hir) [] partial_nil
  rw [List.append_nil, runEntries_payloads env _ hir] at hpl
  have h0 : parseLog env [] [] = .ok { status := eOK, log := [], senderIp := [] } := by
    simp [parseLog, parseLoop]
    decide
  refine ⟨(([LogEntry.header env.now WLOG_VERSION env.recoveryId [] env.config]).map LogEntry.payload).flatMap frame, ?_, ?_⟩
  · unfold compactLog
    rw [h0]
    simp only [ne_eq, not_true_eq_false, if_false, List.all_nil, if_true, List.flatMap_nil]
    rw [hrec]
  · rw [hpl]
    have hhead : LP.stepEntry env { senderIp := [] } (.header env.now WLOG_VERSION env.recoveryId [] env.config) =
        .ok { senderIp := [], status := eINVALID_LOG } := by
      unfold LP.stepEntry
      rw [if_neg (by exact fun hc => absurd hc.1 (by show eOK ≠ _; decide))]
      simp only [LP.process, LP.onHeader, ne_eq, not_true_eq_false, if_false, if_true]
      rfl
    simp only [runEntries, hhead, if_true, conclude, List.append_nil]

/-! ## C54 -/

/-- Sizes that were logged for file `i`. -/
def sizesLogged (i : Int) (es : List LogEntry) : List Int :=
  es.flatMap fun
    | .fileCreation _ _ j s => if j = i then [s] else []
    | .fileResize _ j s => if j = i then [s] else []
    | _ => []

/-- An entry that makes sense after `pre`: a complete header, a new id, a range within a
file that is known, an invalidation of a known file.  A resize must be of a file that is
still on disk as required, and not below any size ever logged under that id. -/
def Fits (env : LogEnv) (pre : List LogEntry) : LogEntry → Prop
  | .header _ v _ s _ => v = WLOG_VERSION ∧ s ≠ []
  | .dirInvalidation _ => True
  | .fileCreation _ _ i _ => inDoubt env pre = true ∨
      ((∃ h ∈ pre, h.confirms env = true) ∧ ∀ n sz ch, ¬ Live env pre i n sz ch)
  | .blockWrite _ i o s => inDoubt env pre = true ∨
      ((∃ h ∈ pre, h.confirms env = true) ∧ ∃ n sz ch, Live env pre i n sz ch ∧
        ∀ d, env.disk n = some d → 0 ≤ s ∧ o + s ≤ d ∧ d ≤ int64Max)
  | .fileInvalidation _ i => inDoubt env pre = true ∨
      ((∃ h ∈ pre, h.confirms env = true) ∧ ∃ n sz ch, Live env pre i n sz ch)
  | .fileResize _ i size => inDoubt env pre = true ∨
      ((∃ h ∈ pre, h.confirms env = true) ∧ ∃ n sz ch d, Live env pre i n sz ch ∧
        env.disk n = some d ∧ (env.prealloc = true → sz ≤ d ∧ size ≤ d) ∧ ∀ old ∈ sizesLogged i pre, old ≤ size)

/-- Every entry fits after those before it. -/
def AllFit (env : LogEnv) (pre : List LogEntry) : List LogEntry → Prop
  | [] => True
  | e :: es => Fits env pre e ∧ AllFit env (pre ++ [e]) es

/-- Look-up in the size map. -/
def sizeIn (l : List (Int × Int)) (i : Int) : Option Int := (l.find? fun x => x.1 == i).map (·.2)

/-- Header flag and size map. -/
structure LSize (env : LogEnv) (es : List LogEntry) (st : LP) : Prop where
  hdr : inDoubt env es = false → (∃ h ∈ es, h.confirms env = true) → st.headerParsed = true
  has : ∀ x ∈ st.infos, (sizeIn st.sizes x.seqId).isSome = true
  logged : ∀ i s, sizeIn st.sizes i = some s → s ∈ sizesLogged i es

theorem sizesLogged_snoc (i : Int) (es : List LogEntry) (e : LogEntry) :
    sizesLogged i (es ++ [e]) = sizesLogged i es ++ sizesLogged i [e] := by
  simp [sizesLogged, List.flatMap_append]

theorem sizeIn_snoc (l : List (Int × Int)) (i j s : Int) (hn : sizeIn l j = none) :
    sizeIn (l ++ [(j, s)]) i = if i = j then some s else sizeIn l i := by
  unfold sizeIn at *
  simp only [Option.map_eq_none_iff] at hn
  simp only [List.find?_append]
  by_cases h : i = j
  · subst h; rw [hn]; simp
  · rw [if_neg h]
    have : ((j, s) : Int × Int).1 ≠ i := fun hc => h hc.symm
    cases l.find? (fun x => x.1 == i) with
    | none => simp [this]
    | some x => simp

theorem sizeIn_map (l : List (Int × Int)) (i j s : Int) :
    sizeIn (l.map fun x => if x.1 = j then (j, s) else x) i =
      if i = j then (sizeIn l i).map (fun _ => s) else sizeIn l i := by
  induction l with
  | nil => simp [sizeIn]
  | cons x l ih =>
    unfold sizeIn at *
    rw [List.map_cons]
    by_cases hx : x.1 = j
    · rw [if_pos hx]
      by_cases h : i = j
      · rw [List.find?_cons_of_pos (by simp [h]), List.find?_cons_of_pos (by simp [h, hx]), if_pos h]
        rfl
      · have h' : ¬ j = i := fun hc => h hc.symm
        rw [List.find?_cons_of_neg (by simpa using h'), List.find?_cons_of_neg (by rw [hx]; simpa using h')]
        exact ih
    · rw [if_neg hx]
      by_cases h : x.1 = i
      · have hij : i ≠ j := fun hc => hx (h.trans hc)
        rw [List.find?_cons_of_pos (by simp [h]), List.find?_cons_of_pos (by simp [h]), if_neg hij]
      · rw [List.find?_cons_of_neg (by simpa using h), List.find?_cons_of_neg (by simpa using h)]
        exact ih

theorem LInv.step_fits {env : LogEnv} (hpo : env.parseOnly = false) (hdt : env.dirTree = false) {es : List LogEntry} {st : LP}
    (hi : LInv env es st) (hz : LSize env es st) (e : LogEntry) (hf : Fits env es e) :
    ∃ st', st.stepEntry env e = .ok st' ∧ st'.status ≠ eINVALID_LOG ∧ LSize env (es ++ [e]) st' := by
  have hst := hi.status
  have hconf : ∀ e, LogEntry.confirms env e = false → (∃ h ∈ es ++ [e], h.confirms env = true) → ∃ h ∈ es, h.confirms env = true := by
    rintro e he ⟨h, hm, hc⟩
    rcases List.mem_append.1 hm with hm | hm
    · exact ⟨h, hm, hc⟩
    · simp only [List.mem_singleton] at hm
      subst hm; rw [he] at hc; cases hc
  have hkeep : ∀ i s, s ∈ sizesLogged i es → s ∈ sizesLogged i (es ++ [e]) := by
    intro i s h; rw [sizesLogged_snoc]; exact List.mem_append_left _ h
  unfold LP.stepEntry
  -- in doubt, files are skipped
  have hdoubt : inDoubt env es = true → e.type ≠ 0 →
      ∃ st', (if st.status = eINCONSISTENT_DIRECTORY ∧ e.type ≠ 0 then Except.ok st
        else match st.process env e with
          | .error f => .error f
          | .ok st' => .ok st'.settle) = .ok st' ∧ st'.status ≠ eINVALID_LOG ∧ LSize env (es ++ [e]) st' := by
    intro hd ht
    rw [hd, if_pos rfl] at hst
    rw [if_pos ⟨hst, ht⟩]
    refine ⟨st, rfl, by rw [hst]; decide, ?_, hz.has, fun i s h => hkeep i s (hz.logged i s h)⟩
    intro h1
    rw [inDoubt_snoc] at h1
    have hnc : e.confirms env = false := by
      cases e <;> simp_all [LogEntry.confirms, LogEntry.type]
    rw [hnc, hd] at h1
    simp at h1
  have hempty : ∀ s1 : LP, s1.status = eINCONSISTENT_DIRECTORY → inDoubt env (es ++ [e]) = true →
      LSize env (es ++ [e]) s1.settle := by
    intro s1 h1 h2
    have : s1.settle = { s1 with infos := [], sizes := [], invalid := [] } := by unfold LP.settle; rw [if_pos h1]
    rw [this]
    refine ⟨fun h => (by rw [h2] at h; cases h), fun x hx => (by cases hx), fun i s h => (by simp [sizeIn] at h)⟩
  cases e with
  | header ts v r s c =>
    obtain ⟨hf1, hf2⟩ : v = WLOG_VERSION ∧ s ≠ [] := hf
    subst hf1
    rw [if_neg (by simp [LogEntry.type])]
    simp only [LP.process, LP.onHeader, hpo, hf2, ne_eq, not_true_eq_false, if_false, Bool.false_eq_true]
    by_cases hm : env.recoveryId = r ∧ env.config = c
    · rw [if_neg (by simp [hm.1]), if_neg (by simp [hm.2])]
      refine ⟨_, rfl, ?_⟩
      rw [settle_of (by show eOK ≠ _; decide)]
      refine ⟨by show eOK ≠ _; decide, fun _ _ => rfl, hz.has, ?_⟩
      intro i s h; exact hkeep i s (hz.logged i s h)
    · have hr : (LogEntry.header ts WLOG_VERSION r s c).resets env = true := by
        simp only [LogEntry.resets, decide_eq_true_eq]
        by_cases h1 : r = env.recoveryId
        · right; intro h2; exact hm ⟨h1.symm, h2.symm⟩
        · left; exact h1
      have hd' : inDoubt env (es ++ [.header ts WLOG_VERSION r s c]) = true := by rw [inDoubt_snoc, hr]; simp
      by_cases h1 : env.recoveryId = r
      · have h2 : ¬ env.config = c := fun h2 => hm ⟨h1, h2⟩
        rw [if_neg (by simp [h1]), if_pos h2]
        exact ⟨_, rfl, by simp [LP.settle, eINCONSISTENT_DIRECTORY, eINVALID_LOG], hempty _ rfl hd'⟩
      · rw [if_pos h1]
        exact ⟨_, rfl, by simp [LP.settle, eINCONSISTENT_DIRECTORY, eINVALID_LOG], hempty _ rfl hd'⟩
  | dirInvalidation ts =>
    by_cases hd : inDoubt env es = true
    · exact hdoubt hd (by simp [LogEntry.type])
    · rw [if_neg (by rw [hst]; simp [hd, eOK, eINCONSISTENT_DIRECTORY])]
      simp only [LP.process, LP.onDirInvalidation, hpo, Bool.false_eq_true, if_false]
      exact ⟨_, rfl, by simp [LP.settle, eINCONSISTENT_DIRECTORY, eINVALID_LOG],
        hempty _ rfl (by rw [inDoubt_snoc]; simp [LogEntry.resets])⟩
  | fileCreation ts n i size =>
    by_cases hd : inDoubt env es = true
    · exact hdoubt hd (by simp [LogEntry.type])
    have hd0 : inDoubt env es = false := by simpa using hd
    rw [if_neg (by rw [hst]; simp [hd, eOK, eINCONSISTENT_DIRECTORY])]
    simp only [Fits, hd, Bool.false_eq_true, false_or] at hf
    obtain ⟨hh, hnl⟩ := hf
    have hp := hz.hdr hd0 hh
    have h1 : st.find i = none := by
      rw [find_none]
      intro x hx hc
      obtain ⟨sz, hl, _⟩ := (hi.infos x).1 hx
      exact hnl _ _ _ (hc ▸ hl)
    have h2 : i ∉ st.invalid := by
      intro hc
      obtain ⟨n', sz, ch, hl, _⟩ := (hi.invalid i).1 hc
      exact hnl _ _ _ hl
    simp only [LP.process, LP.onCreation, hp, hpo, hdt, h1, Bool.not_true, Bool.false_eq_true, if_false,
      Option.isSome_none, Bool.false_or]
    rw [if_neg (by simpa using h2)]
    have hlost : ∀ s1 : LP, s1.status = eOK → s1.headerParsed = true → s1.infos = st.infos → s1.sizes = st.sizes →
        s1.settle.status ≠ eINVALID_LOG ∧ LSize env (es ++ [.fileCreation ts n i size]) s1.settle := by
      intro s1 a1 a2 a3 a4
      rw [settle_of (by rw [a1]; decide)]
      refine ⟨by rw [a1]; decide, fun _ _ => a2, ?_, ?_⟩
      · intro x hx; rw [a4]; exact hz.has x (a3 ▸ hx)
      · intro j s h; rw [a4] at h; exact hkeep j s (hz.logged j s h)
    split
    · refine ⟨_, rfl, hlost _ rfl rfl rfl rfl⟩
    · rename_i d hdk
      split
      · refine ⟨_, rfl, hlost _ rfl rfl rfl rfl⟩
      · refine ⟨_, rfl, ?_⟩
        rw [settle_of (by show eOK ≠ _; decide)]
        have hsz : ∀ j, sizeIn (if (st.sizeOf i).isSome = true then st.sizes else st.sizes ++ [(i, size)]) j =
            if (sizeIn st.sizes j).isSome = true then sizeIn st.sizes j else if j = i then some size else none := by
          intro j
          have e : st.sizeOf i = sizeIn st.sizes i := rfl
          rw [e]
          by_cases hc : (sizeIn st.sizes i).isSome = true
          · rw [if_pos hc]
            by_cases hj : (sizeIn st.sizes j).isSome = true
            · rw [if_pos hj]
            · rw [if_neg hj, if_neg (fun he : j = i => hj (by rw [he]; exact hc))]
              simpa using hj
          · rw [if_neg hc, sizeIn_snoc _ _ _ _ (by simpa using hc)]
            by_cases hj : j = i
            · subst hj; rw [if_pos rfl, if_neg hc, if_pos rfl]
            · rw [if_neg hj, if_neg hj]
              by_cases hj2 : (sizeIn st.sizes j).isSome = true
              · rw [if_pos hj2]
              · rw [if_neg hj2]; simpa using hj2
        refine ⟨by show eOK ≠ _; decide, fun _ _ => rfl, ?_, ?_⟩
        · intro x hx
          show (sizeIn (if _ then _ else _) _).isSome = true
          rw [hsz]
          rcases (mem_insInfo _ x st.infos).1 hx with rfl | hx
          · split
            · assumption
            · simp
          · rw [if_pos (hz.has x hx)]; exact hz.has x hx
        · intro j s h
          have h' : sizeIn (if (st.sizeOf i).isSome = true then st.sizes else st.sizes ++ [(i, size)]) j = some s := h
          clear h
          rw [hsz] at h'
          split at h'
          · exact hkeep j s (hz.logged j s h')
          · split at h'
            · rename_i hji
              subst hji
              rw [sizesLogged_snoc]
              simp only [Option.some.injEq] at h'
              simp [sizesLogged, h']
            · cases h'
  | fileInvalidation ts i =>
    by_cases hd : inDoubt env es = true
    · exact hdoubt hd (by simp [LogEntry.type])
    have hd0 : inDoubt env es = false := by simpa using hd
    rw [if_neg (by rw [hst]; simp [hd, eOK, eINCONSISTENT_DIRECTORY])]
    simp only [Fits, hd, Bool.false_eq_true, false_or] at hf
    obtain ⟨hh, n, sz, ch, hl⟩ := hf
    have hp := hz.hdr hd0 hh
    have hknown : ¬ ((st.find i).isNone && !st.invalid.contains i) = true := by
      intro hc
      simp only [Bool.and_eq_true, Option.isNone_iff_eq_none, Bool.not_eq_true', List.contains_eq_mem,
        decide_eq_false_iff_not] at hc
      cases ho : onDisk env n sz with
      | none => exact hc.2 ((hi.invalid i).2 ⟨n, sz, ch, hl, ho⟩)
      | some d => exact (find_none.1 hc.1) ⟨i, n, d, ch⟩ ((hi.infos _).2 ⟨sz, hl, ho⟩) rfl
    simp only [LP.process, LP.onInvalidation, hp, hpo, hdt, Bool.not_true, Bool.false_eq_true, if_false]
    rw [if_neg hknown]
    refine ⟨_, rfl, ?_⟩
    rw [settle_of (by show eOK ≠ _; decide)]
    refine ⟨by show eOK ≠ _; decide, fun _ _ => rfl, ?_, ?_⟩
    · intro x hx; exact hz.has x (List.mem_filter.1 hx).1
    · intro j s h; exact hkeep j s (hz.logged j s h)
  | blockWrite ts i off size =>
    by_cases hd : inDoubt env es = true
    · exact hdoubt hd (by simp [LogEntry.type])
    have hd0 : inDoubt env es = false := by simpa using hd
    rw [if_neg (by rw [hst]; simp [hd, eOK, eINCONSISTENT_DIRECTORY])]
    simp only [Fits, hd, Bool.false_eq_true, false_or] at hf
    obtain ⟨hh, n, sz, ch, hl, hb⟩ := hf
    have hp := hz.hdr hd0 hh
    simp only [LP.process, LP.onBlock, hp, hpo, hdt, Bool.not_true, Bool.false_eq_true, if_false]
    by_cases hinv : i ∈ st.invalid
    · rw [if_pos (by simpa using hinv)]
      refine ⟨_, rfl, ?_⟩
      rw [settle_of (by show eOK ≠ _; decide)]
      refine ⟨by show eOK ≠ _; decide, fun _ _ => rfl, hz.has, ?_⟩
      intro j s h; exact hkeep j s (hz.logged j s h)
    · rw [if_neg (by simpa using hinv)]
      cases ho : onDisk env n sz with
      | none => exact absurd ((hi.invalid i).2 ⟨n, sz, ch, hl, ho⟩) hinv
      | some d =>
        have hmem := (hi.infos ⟨i, n, d, ch⟩).2 ⟨sz, hl, ho⟩
        cases hfi : st.find i with
        | none => exact absurd rfl (find_none.1 hfi _ hmem)
        | some info =>
          obtain ⟨hm2, hid⟩ := find_some hfi
          obtain ⟨sz', hl', ho'⟩ := (hi.infos info).1 hm2
          rw [hid] at hl'
          obtain ⟨e1, e2, _⟩ := live_unique env es _ _ _ _ _ _ _ hl hl'
          rw [← e1, ← e2, ho] at ho'
          simp only [Option.some.injEq] at ho'
          obtain ⟨b1, b2, b3⟩ := hb d ((onDisk_iff _ _ _ _).1 ho).1
          simp only
          rw [if_neg (by omega), if_neg (by omega), mkInterval, if_pos (by omega)]
          refine ⟨_, rfl, ?_⟩
          rw [settle_of (by show eOK ≠ _; decide)]
          refine ⟨by show eOK ≠ _; decide, fun _ _ => rfl, ?_, ?_⟩
          · intro x hx
            rcases (mem_addChunk i _ st.infos x).1 hx with ⟨hx, _⟩ | ⟨y, hy, _, rfl⟩
            · exact hz.has x hx
            · exact hz.has y hy
          · intro j s h; exact hkeep j s (hz.logged j s h)
  | fileResize ts i size =>
    by_cases hd : inDoubt env es = true
    · exact hdoubt hd (by simp [LogEntry.type])
    have hd0 : inDoubt env es = false := by simpa using hd
    rw [if_neg (by rw [hst]; simp [hd, eOK, eINCONSISTENT_DIRECTORY])]
    simp only [Fits, hd, Bool.false_eq_true, false_or] at hf
    obtain ⟨hh, n, sz, ch, d, hl, hdk, hpre, hold⟩ := hf
    have hp := hz.hdr hd0 hh
    have ho : onDisk env n sz = some d := (onDisk_iff _ _ _ _).2 ⟨hdk, fun h => (hpre h).1⟩
    have hmem := (hi.infos ⟨i, n, d, ch⟩).2 ⟨sz, hl, ho⟩
    simp only [LP.process, LP.onResize, hp, hpo, hdt, Bool.not_true, Bool.false_eq_true, if_false]
    cases hfi : st.find i with
    | none => exact absurd rfl (find_none.1 hfi _ hmem)
    | some info =>
      obtain ⟨hm2, hid⟩ := find_some hfi
      obtain ⟨sz', hl', ho'⟩ := (hi.infos info).1 hm2
      rw [hid] at hl'
      obtain ⟨e1, e2, _⟩ := live_unique env es _ _ _ _ _ _ _ hl hl'
      rw [← e1, ← e2, ho] at ho'
      simp only [Option.some.injEq] at ho'
      have hsz : (st.sizeOf i).isSome = true := hz.has _ hmem
      cases hso : st.sizeOf i with
      | none => rw [hso] at hsz; cases hsz
      | some old =>
        have hle := hold old (hz.logged i old hso)
        simp only
        rw [if_neg (by omega), if_neg ?_]
        · refine ⟨_, rfl, ?_⟩
          rw [settle_of (by show eOK ≠ _; decide)]
          refine ⟨by show eOK ≠ _; decide, fun _ _ => rfl, ?_, ?_⟩
          · intro x hx
            show (sizeIn (List.map _ _) _).isSome = true
            rw [sizeIn_map]
            have := hz.has x hx
            split
            · simpa using this
            · exact this
          · intro j s h
            have h' : sizeIn (st.sizes.map fun x => if x.1 = i then (i, size) else x) j = some s := h
            clear h
            rw [sizeIn_map] at h'
            split at h'
            · rename_i hji
              subst hji
              rw [show sizeIn st.sizes j = some old from hso] at h'
              simp only [Option.map_some, Option.some.injEq] at h'
              rw [sizesLogged_snoc]
              simp [sizesLogged, h']
            · exact hkeep j s (hz.logged j s h')
        · simp only [Bool.and_eq_true, decide_eq_true_eq, not_and]
          intro hpa
          have := (hpre hpa).2
          omega

/-- A log that a receiver wrote, whose entries make sense one after the other, is never
found invalid.  Missing for the full property (any log that a receiver writes): resizes of
files that have since disappeared from the disk and sizes below one logged for an earlier
file under the same id, see `C54_resize_of_lost_file` and `C54_stale_size`. -/
theorem C54_accepted_partial (env : LogEnv) (hpo : env.parseOnly = false) (hdt : env.dirTree = false) (hnow : I63 env.now)
    (hap : env.appendOk = true) (ip log : Bytes) (es : List LogEntry) (hr : ∀ e ∈ es, e.InRange)
    (hlog : records es = .ok log) (hfit : AllFit env [] es) :
    ∃ out, parseLog env ip log = .ok out ∧ out.status = (if inDoubt env es then eINCONSISTENT_DIRECTORY else eOK) := by
  have key : ∀ (es : List LogEntry) (pre : List LogEntry) (st : LP), LInv env pre st → LSize env pre st → AllFit env pre es →
      st.status ≠ eINVALID_LOG → ∃ st', runEntries env st es = .ok st' ∧ st'.status ≠ eINVALID_LOG := by
    intro es
    induction es with
    | nil => intro pre st _ _ _ hs; exact ⟨st, rfl, hs⟩
    | cons e es ih =>
      intro pre st h1 h2 h3 _
      obtain ⟨st', a1, a2, a3⟩ := h1.step_fits hpo hdt h2 e h3.1
      obtain ⟨st2, b1, b2⟩ := ih (pre ++ [e]) st' (h1.step hpo e a1 a2) a3 h3.2 a2
      refine ⟨st2, ?_, b2⟩
      simp only [runEntries, a1]
      rw [if_neg a2]; exact b1
  obtain ⟨st, h1, h2⟩ := key es [] { senderIp := ip } (LInv.init env ip)
    ⟨fun _ ⟨h, hm, _⟩ => (by cases hm), fun x hx => (by cases hx), fun i s h => (by simp [sizeIn] at h)⟩ hfit
    (by show eOK ≠ _; decide)
  have hli := LInv.run hpo _ [] _ _ (LInv.init env ip) h1 h2
  have hb := LBounds.run hpo _ (fun e he => inRange_nonNeg e (hr e he)) [] _ _ (LInv.init env ip) (LBounds.init env ip) h1 h2
  rw [List.nil_append] at hli
  rw [records_eq es hr] at hlog
  simp only [Except.ok.injEq] at hlog
  have hpl := parseLog_frames env ip _ (payloads_ok _ hr) [] partial_nil
  rw [List.append_nil, hlog, runEntries_payloads env _ hr, h1] at hpl
  rw [hpl]
  simp only [conclude, if_neg h2]
  rw [if_neg (by simp)]
  have hst := hli.status
  by_cases hd : inDoubt env es = true
  · rw [hd, if_pos rfl] at hst ⊢
    rw [if_pos (by rw [hst]; decide)]
    exact ⟨_, rfl, hst⟩
  · rw [if_neg hd] at hst ⊢
    rw [if_neg (by rw [hst]; decide)]
    split
    · exact ⟨_, rfl, rfl⟩
    · rw [invalidationBytes_eq env.now hnow st.invalid hb.2]
      simp only [hap, Bool.not_true, Bool.false_eq_true, if_false]
      exact ⟨_, rfl, rfl⟩

/-- Environment of the examples: recovery id "r", files "a" (20 bytes) and "b" (12 bytes)
on disk. -/
def exLogEnv : LogEnv where
  recoveryId := [114]
  config := 3
  disk n := if n = [97] then some 20 else if n = [98] then some 12 else none

/-- File "c" is no longer on disk.  Had it only been created and written, the log would be
fine; because it was also resized the whole log is refused, and with it everything that
is known about other files (TransferLogManager.cpp:893-897; compare :934-938 for blocks). -/
theorem C54_resize_of_lost_file :
    let es : List LogEntry := [.header 1 2 [114] [105] 3, .fileCreation 1 [97] 1 20, .blockWrite 1 1 0 20,
      .fileCreation 1 [99] 2 5, .blockWrite 1 2 0 5, .fileResize 2 2 9]
    ∃ log out, records es = .ok log ∧ parseLog exLogEnv [] log = .ok out ∧ out.status = eINVALID_LOG ∧ out.infos = [] := by
  exact ⟨[8, 0, 0, 1, 2, 1, 114, 1, 105, 3, 6, 0, 1, 1, 1, 97, 1, 20, 5, 0, 2, 1, 1, 0, 20, 6, 0, 1, 1, 1, 99, 2, 5, 5,
    0, 2, 1, 2, 0, 5, 4, 0, 4, 2, 2, 9],
    { status := eINVALID_LOG, log := [8, 0, 0, 1, 2, 1, 114, 1, 105, 3, 6, 0, 1, 1, 1, 97, 1, 20, 5, 0, 2, 1, 1, 0, 20, 6, 0, 1, 1, 1, 99, 2, 5, 5,
    0, 2, 1, 2, 0, 5, 4, 0, 4, 2, 2, 9], senderIp := [105] }, by decide +kernel, by decide +kernel, rfl, rfl⟩

/-- Id 1 belonged to a file of 20 bytes that was invalidated; it then belongs to "b", first
10, later 12 bytes.  The parser compares with the 20 it still remembers and refuses the
log (TransferLogManager.cpp:899-905, :986-997 does not forget the size). -/
theorem C54_stale_size :
    let es : List LogEntry := [.header 1 2 [114] [105] 3, .fileCreation 1 [97] 1 20, .fileInvalidation 1 1,
      .fileCreation 2 [98] 1 10, .fileResize 2 1 12]
    ∃ log out, records es = .ok log ∧ parseLog exLogEnv [] log = .ok out ∧ out.status = eINVALID_LOG ∧ out.infos = [] := by
  exact ⟨[8, 0, 0, 1, 2, 1, 114, 1, 105, 3, 6, 0, 1, 1, 1, 97, 1, 20, 3, 0, 3, 1, 1, 6, 0, 1, 2, 1, 98, 1, 10, 4, 0, 4,
    2, 1, 12],
    { status := eINVALID_LOG, log := [8, 0, 0, 1, 2, 1, 114, 1, 105, 3, 6, 0, 1, 1, 1, 97, 1, 20, 3, 0, 3, 1, 1, 6, 0, 1, 2, 1, 98, 1, 10, 4, 0, 4,
    2, 1, 12], senderIp := [105] }, by decide +kernel, by decide +kernel, rfl, rfl⟩

/-- A log with a range beyond the 63-bit numbers is undefined behaviour
(TransferLogManager.cpp:955). -/
theorem C54_overflow_ub :
    let es : List LogEntry := [.header 1 2 [114] [105] 3, .fileCreation 1 [97] 1 20,
      .blockWrite 1 1 int64Max 1]
    ∃ log, records es = .ok log ∧ parseLog exLogEnv [] log = .error .ub := by
  exact ⟨[8, 0, 0, 1, 2, 1, 114, 1, 105, 3, 6, 0, 1, 1, 1, 97, 1, 20, 13, 0, 2, 1, 1, 255, 255, 255, 255, 255, 255,
    255, 255, 127, 1], by decide +kernel, by decide +kernel⟩

/-- A log that fits, with a file that is no longer on disk ("c", id 2, whose id is then
reused for "b"). -/
example : AllFit exLogEnv [] [.header 1 2 [114] [105] 3, .fileCreation 1 [97] 1 20, .blockWrite 1 1 0 20,
    .fileCreation 1 [99] 2 5, .blockWrite 1 2 0 5, .fileResize 3 1 20, .fileInvalidation 5 2, .fileCreation 6 [98] 2 12] := by
  have l1 : Live exLogEnv [.header 1 2 [114] [105] 3, .fileCreation 1 [97] 1 20] 1 [97] 20 [] :=
    ⟨[.header 1 2 [114] [105] 3], 1, [], rfl, by decide, by simp, rfl⟩
  have n1 : ∀ n sz ch, ¬ Live exLogEnv [.header 1 2 [114] [105] 3] 1 n sz ch := by
    intro n sz ch h
    rcases (live_snoc _ [] _ _ _ _ _).1 h with ⟨⟨_, h⟩, _⟩ | ⟨_, _, h, _⟩
    · cases h
    · exact live_nil h
  have c1 : ∀ l : List LogEntry, ∃ h ∈ LogEntry.header 1 2 [114] [105] 3 :: l, h.confirms exLogEnv = true :=
    fun l => ⟨_, List.mem_cons_self .., by decide⟩
  have n2 : ∀ n sz ch, ¬ Live exLogEnv [.header 1 2 [114] [105] 3, .fileCreation 1 [97] 1 20, .blockWrite 1 1 0 20] 2 n sz ch := by
    rintro n sz ch ⟨pre, ts, post, he, _⟩
    have : LogEntry.fileCreation ts n 2 sz ∈ [LogEntry.header 1 2 [114] [105] 3, .fileCreation 1 [97] 1 20, .blockWrite 1 1 0 20] := by
      rw [he]; simp
    simp at this
  have l2 : ∀ post : List LogEntry, (∀ e ∈ post, e.endsFile exLogEnv 2 = false) →
      Live exLogEnv ([.header 1 2 [114] [105] 3, .fileCreation 1 [97] 1 20, .blockWrite 1 1 0 20] ++
        .fileCreation 1 [99] 2 5 :: post) 2 [99] 5 (post.flatMap (LogEntry.range 2)) :=
    fun post h => ⟨_, 1, post, rfl, by decide, h, rfl⟩
  refine ⟨⟨rfl, by simp⟩, Or.inr ⟨c1 _, n1⟩, Or.inr ⟨c1 _, [97], 20, [], l1, by decide⟩, Or.inr ⟨c1 _, n2⟩,
    Or.inr ⟨c1 _, [99], 5, [], l2 [] (by simp), by intro d hd; simp [exLogEnv] at hd⟩,
    Or.inr ⟨c1 _, [97], 20, [⟨0, 20⟩], 20, ⟨[.header 1 2 [114] [105] 3], 1, _, rfl, by decide, by decide, by decide⟩,
      by decide, by decide, by decide⟩,
    Or.inr ⟨c1 _, [99], 5, [⟨0, 5⟩], l2 [.blockWrite 1 2 0 5, .fileResize 3 1 20] (by decide)⟩,
    Or.inr ⟨c1 _, ?_⟩, trivial⟩
  intro n sz ch h
  rcases (live_snoc _ [.header 1 2 [114] [105] 3, .fileCreation 1 [97] 1 20, .blockWrite 1 1 0 20,
    .fileCreation 1 [99] 2 5, .blockWrite 1 2 0 5, .fileResize 3 1 20] (.fileInvalidation 5 2) _ _ _ _).1 h with ⟨⟨_, h⟩, _⟩ | ⟨h, _⟩
  · cases h
  · revert h; decide

/-- The log of the example is parsed: "c" is gone, "a" is complete. -/
example : Says exLogEnv [.header 1 2 [114] [105] 3, .fileCreation 1 [97] 1 20, .blockWrite 1 1 0 20] [⟨1, [97], 20, [⟨0, 20⟩]⟩] := by
  have hl : Live exLogEnv [.header 1 2 [114] [105] 3, .fileCreation 1 [97] 1 20, .blockWrite 1 1 0 20] 1 [97] 20 [⟨0, 20⟩] :=
    ⟨[.header 1 2 [114] [105] 3], 1, _, rfl, by decide, by decide, by decide⟩
  refine ⟨by simp, ?_, ?_⟩
  · intro x hx
    simp only [List.mem_singleton] at hx
    subst hx
    exact ⟨20, [⟨0, 20⟩], hl, by decide, by decide, by simp [Separated], fun p => Iff.rfl, by decide⟩
  · rintro i n size ranges d ⟨pre, ts, post, he, _⟩ hd hp
    have : LogEntry.fileCreation ts n i size ∈ [LogEntry.header 1 2 [114] [105] 3, .fileCreation 1 [97] 1 20, .blockWrite 1 1 0 20] := by
      rw [he]; simp
    simp only [List.mem_cons, reduceCtorEq, LogEntry.fileCreation.injEq, List.not_mem_nil, or_false, false_or] at this
    obtain ⟨_, rfl, rfl, rfl⟩ := this
    refine ⟨_, List.mem_singleton.2 rfl, rfl, rfl, ?_⟩
    simpa [exLogEnv] using hd

end Wdt
