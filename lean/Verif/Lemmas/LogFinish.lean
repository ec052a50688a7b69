import Verif.Lemmas.LogSteps
/-
The invariant of `LogHistory` is kept by the end of a transfer, with and without compaction
of the log; it holds in every history.
-/
namespace Wdt

/-- What the log says about a file is backed by what happened. -/
theorem live_backed {v g : Bool} {env : LogEnv} {es : List LogEntry} {tr : List TItem} (hq : QOk v g es tr)
    {i : Int} {n : Bytes} {size : Int} {ranges : List Interval} (hl : Live env es i n size ranges) :
    ∃ τ0 post, τ0.rid = env.recoveryId ∧ τ0.cfg = env.config ∧ ranges = post.flatMap (LogEntry.range i) ∧
      Backed v g tr τ0 n i post ∧ ∃ τ', lastHdr es = some τ' ∧ τ0.same v τ' := by
  obtain ⟨pre, ts, post, h1, h2, h3, h4⟩ := hl
  obtain ⟨τ0, k1, k2⟩ := hq pre ts n i size post h1
  have henv : τ0.rid = env.recoveryId ∧ τ0.cfg = env.config := by
    by_contra hx
    have := inDoubt_of_hdr k1 hx
    rw [h2] at this; cases this
  rcases k2 with ⟨e, hm, hb⟩ | hb
  · have := h3 e hm
    rw [breaks_ends henv.1 henv.2 hb] at this; cases this
  · refine ⟨τ0, post, henv.1, henv.2, h4, hb, ?_⟩
    obtain ⟨_, _, _, _, _, _, _, _, b3, _, _⟩ := hb
    rw [h1, lastHdr_append, ← List.singleton_append, lastHdr_append]
    cases hp : lastHdr post with
    | none => exact ⟨τ0, by rw [k1]; rfl, Tag.same_refl _ _⟩
    | some τ' =>
      obtain ⟨ts3, w3, hm⟩ := lastHdr_mem hp
      exact ⟨τ', by simp, b3 _ _ _ _ _ hm⟩

theorem adds_fold {m : LogMgr} (hu : m.up = true) (hfd : m.fd = true) (hh : m.headerWritten = true) (l : List LogEntry)
    (hl : ∀ e ∈ l, e.InRange ∧ e.isAdd = true) :
    l.foldl (fun m e => if m.up then m.add e else m) m = { m with pending := m.pending ++ l } := by
  induction l generalizing m with
  | nil => simp
  | cons e l ih =>
    obtain ⟨h1, h2⟩ := hl e (by simp)
    have ha : m.add e = { m with pending := m.pending ++ [e] } := by
      unfold LogMgr.add
      rw [record_ok e h1]
      cases e <;> simp [LogEntry.isAdd, hfd, hh] at h2 ⊢
    rw [List.foldl_cons, if_pos hu, ha]
    rw [ih (m := { m with pending := m.pending ++ [e] }) hu hfd hh (fun x hx => hl x (by simp [hx]))]
    simp

theorem adds_closed {m : LogMgr} (hfd : m.fd = false) (l : List LogEntry) :
    l.foldl (fun m e => if m.up then m.add e else m) m = m := by
  induction l with
  | nil => rfl
  | cons e l ih =>
    have ha : m.add e = m := by
      unfold LogMgr.add
      cases e <;> simp [hfd]
    rw [List.foldl_cons, ha]
    simpa using ih

/-- In a compacted log, cut anywhere, a block is preceded by the creation of its file. -/
theorem compact_block_created (now : Int) {ts i o z : Int} : ∀ (infos : List FileChunksInfo) (k : Nat),
    LogEntry.blockWrite ts i o z ∈ (infos.flatMap (compactEntries now)).take k →
    ∃ ts' n sz, LogEntry.fileCreation ts' n i sz ∈ (infos.flatMap (compactEntries now)).take k := by
  intro infos
  induction infos with
  | nil => intro k h; simp at h
  | cons x infos ih =>
    intro k h
    rw [List.flatMap_cons] at h ⊢
    simp only [compactEntries, List.cons_append, List.nil_append] at h ⊢
    match k with
    | 0 => simp at h
    | 1 => simp at h
    | k + 2 =>
      simp only [List.take_succ_cons, List.mem_cons, LogEntry.blockWrite.injEq, reduceCtorEq, false_or] at h ⊢
      rcases h with ⟨_, rfl, _⟩ | h
      · exact ⟨now, x.fileName, x.fileSize, by simp⟩
      · obtain ⟨ts', n, sz, h⟩ := ih k h
        exact ⟨ts', n, sz, Or.inr h⟩

theorem asc_unique {l : List FileChunksInfo} (h : l.Pairwise fun a b => a.seqId < b.seqId) {x y : FileChunksInfo}
    (hx : x ∈ l) (hy : y ∈ l) (he : x.seqId = y.seqId) : x = y := by
  induction l with
  | nil => cases hx
  | cons a l ih =>
    rw [List.pairwise_cons] at h
    rcases List.mem_cons.1 hx with rfl | hx' <;> rcases List.mem_cons.1 hy with rfl | hy'
    · rfl
    · have := h.1 _ hy'; omega
    · have := h.1 _ hx'; omega
    · exact ih h.2 hx' hy'

/-- The entries written by a compaction. -/
theorem compacted_q {v g : Bool} {s : LogSys} {es0 es1 : List LogEntry} {t : Bytes} {tr0 tr1 : List TItem}
    (h : Up v g s es0 es1 t tr0 tr1) (env : LogEnv) (henv : env.recoveryId = s.m.env.recoveryId ∧ env.config = s.m.env.config)
    {infos : List FileChunksInfo} (hsay : Says env (es0 ++ es1) infos)
    (hwhole : ∀ x ∈ infos, x.chunks = [⟨0, x.fileSize⟩]) (ip : Bytes)
    (hip : ip = ((lastHdr (es0 ++ es1)).map Tag.ip).getD s.m.senderIp) (ts now : Int) (k : Nat) :
    QOk v g (.header ts WLOG_VERSION s.m.env.recoveryId ip s.m.env.config :: (s.m.pending ++ infos.flatMap (compactEntries now)).take k) s.tr := by
  intro pre ts1 name i sz post he
  rw [← List.singleton_append, List.take_append] at he
  have hple : ∀ e ∈ s.m.pending.take k, e.plain = true := fun e hm => (h.pend e (List.mem_of_mem_take hm)).2
  have hcle : ∀ e ∈ (infos.flatMap (compactEntries now)).take (k - s.m.pending.length), e.plain = true := by
    intro e hm
    obtain ⟨x, _, hx⟩ := List.mem_flatMap.1 (List.mem_of_mem_take hm)
    simp only [compactEntries, List.mem_cons, List.not_mem_nil, or_false] at hx
    rcases hx with rfl | rfl <;> rfl
  rcases split_append he with ⟨p, h1, h2⟩ | ⟨p, h1, h2⟩
  · have : LogEntry.fileCreation ts1 name i sz ∈ [LogEntry.header ts WLOG_VERSION s.m.env.recoveryId ip s.m.env.config] := by rw [h1]; simp
    simp at this
  · rcases split_append h2 with ⟨q, k1, k2⟩ | ⟨q, k1, k2⟩
    · -- an entry that was still pending
      have hin : LogEntry.fileCreation ts1 name i sz ∈ s.m.pending := List.mem_of_mem_take (i := k) (by rw [k1]; simp)
      have hlast : lastHdr es1 = some s.tag := h.hw (h.pendHw _ hin rfl)
      have hpp : lastHdr p = none := plain_no_hdr (fun e hm => hple e (by rw [k1]; simp [hm]))
      have htag : (⟨s.m.env.recoveryId, s.m.env.config, ip⟩ : Tag) = s.tag := by
        rw [hip, lastHdr_append, hlast]; rfl
      refine ⟨s.tag, ?_, ?_⟩
      · rw [h1, lastHdr_append, hpp, ← htag]; rfl
      · obtain ⟨τ0, m1, m2⟩ := h.q_ext (s.m.pending.take k) (List.take_sublist ..) (es0 ++ es1 ++ p) ts1 name i sz q
          (by rw [k1]; simp)
        have : τ0 = s.tag := by
          rw [lastHdr_append, hpp, lastHdr_append, hlast] at m1
          simpa using m1.symm
        subst this
        rcases m2 with ⟨e, hm, hb⟩ | ⟨a, τs, ns, ts2, sz2, b, b1, b2, b3, b4, b5⟩
        · exact Or.inl ⟨e, by rw [k2]; simp [hm], hb⟩
        · by_cases hx : ∃ ts' o z, LogEntry.blockWrite ts' i o z ∈ (infos.flatMap (compactEntries now)).take (k - s.m.pending.length)
          · obtain ⟨ts', o, z, hx⟩ := hx
            obtain ⟨ts3, n3, sz3, hx⟩ := compact_block_created now infos _ hx
            exact Or.inl ⟨.fileCreation ts3 n3 i sz3, by rw [k2]; exact List.mem_append_right _ hx, rfl⟩
          · refine Or.inr ⟨a, τs, ns, ts2, sz2, b, b1, b2, ?_, ?_, b5⟩
            · intro ts3 w r s' c hm
              rw [k2] at hm
              rcases List.mem_append.1 hm with hm | hm
              · exact b3 _ _ _ _ _ hm
              · have := hcle _ hm; simp [LogEntry.plain] at this
            · intro ts3 o z hm
              rw [k2] at hm
              rcases List.mem_append.1 hm with hm | hm
              · exact b4 _ _ _ hm
              · exact absurd ⟨_, _, _, hm⟩ hx
    · -- an entry of the compaction
      have hpp : lastHdr p = none := plain_no_hdr (fun e hm => by
        rw [k1] at hm
        rcases List.mem_append.1 hm with hm | hm
        · exact hple e hm
        · exact hcle e (by rw [k2]; simp [hm]))
      refine ⟨⟨s.m.env.recoveryId, s.m.env.config, ip⟩, by rw [h1, lastHdr_append, hpp]; rfl, Or.inr ?_⟩
      have hin : LogEntry.fileCreation ts1 name i sz ∈ infos.flatMap (compactEntries now) :=
        List.mem_of_mem_take (i := k - s.m.pending.length) (by rw [k2]; simp)
      obtain ⟨x, hx, hm⟩ := List.mem_flatMap.1 hin
      simp only [compactEntries, List.mem_cons, LogEntry.fileCreation.injEq, reduceCtorEq, List.not_mem_nil, or_false] at hm
      obtain ⟨_, rfl, rfl, rfl⟩ := hm
      obtain ⟨size, ranges, hlive, _, _, _, hcov, _⟩ := hsay.sound x hx
      obtain ⟨τ0, post0, e1, e2, e3, ⟨a, τs, ns, ts2, sz2, b, b1, b2, b3, b4, b5⟩, τ', l1, l2⟩ := live_backed h.q_all hlive
      have hsame : Tag.same v ⟨s.m.env.recoveryId, s.m.env.config, ip⟩ τ0 := by
        refine ⟨by rw [e1, henv.1], by rw [e2, henv.2], fun hv => ?_⟩
        rw [hip, l1]
        exact (l2.2.2 hv).symm
      refine ⟨a, τs, ns, ts2, sz2, b, b1, Tag.same_trans hsame b2, ?_, ?_, ?_⟩
      · intro ts3 w r s' c hm
        have := hcle (.header ts3 w r s' c) (by rw [k2]; simp [hm]); simp [LogEntry.plain] at this
      · intro ts3 o z hm pos hp1 hp2
        have hin : LogEntry.blockWrite ts3 x.seqId o z ∈ infos.flatMap (compactEntries now) :=
          List.mem_of_mem_take (i := k - s.m.pending.length) (by rw [k2]; simp [hm])
        obtain ⟨y, hy, hm⟩ := List.mem_flatMap.1 hin
        simp only [compactEntries, List.mem_cons, LogEntry.blockWrite.injEq, reduceCtorEq, List.not_mem_nil, or_false, false_or] at hm
        obtain ⟨_, hid, rfl, rfl⟩ := hm
        have hxy : x = y := asc_unique hsay.ascending hx hy hid
        subst hxy
        have hc : Covered ranges pos := (hcov pos).1 (by
          rw [hwhole x hx]
          exact ⟨_, List.mem_singleton.2 rfl, hp1, by simpa using hp2⟩)
        obtain ⟨c, hc1, hc2, hc3⟩ := hc
        rw [e3] at hc1
        obtain ⟨e, he1, he2⟩ := List.mem_flatMap.1 hc1
        cases e with
        | blockWrite ts4 j o z =>
          simp only [LogEntry.range] at he2
          split at he2
          · rename_i hj; subst hj
            rw [List.mem_singleton] at he2; subst he2
            obtain ⟨ts5, o5, z5, τ5, n5, g1, g2, g3, g4⟩ := b4 _ _ _ he1 pos hc2 hc3
            exact ⟨ts5, o5, z5, τ5, n5, g1, Tag.same_trans hsame g2, g3, g4⟩
          · simp at he2
        | _ => simp [LogEntry.range] at he2
      · intro hg τd nd res hm
        rcases b5 hg τd nd res hm with hx | ⟨hx, hr⟩
        · exact Or.inl hx
        · exact Or.inr ⟨Tag.same_trans hsame hx, hr⟩

theorem closeLog_up (m : LogMgr) (w : Nat) : (m.closeLog w).up = m.up := by
  unfold LogMgr.closeLog LogMgr.flush
  split
  · split
    · rfl
    · split <;> rfl
  · rfl

theorem closeLog_log (m : LogMgr) (w : Nat) : (m.closeLog w).log = m.log ∨ (m.closeLog w).log = (m.flush w).log := by
  unfold LogMgr.closeLog
  split
  · split
    · exact Or.inl rfl
    · exact Or.inr rfl
  · exact Or.inl rfl

theorem closeLog_noWriter {m : LogMgr} (h : m.writer = false) (w : Nat) : (m.closeLog w).log = m.log := by
  rcases closeLog_log m w with hx | hx
  · exact hx
  · rw [hx]; unfold LogMgr.flush; rw [h]; rfl

theorem closeLog_writer {m : LogMgr} (h : m.writer = false) (w : Nat) : (m.closeLog w).writer = false := by
  unfold LogMgr.closeLog LogMgr.flush
  split
  · split
    · exact h
    · rfl
  · exact h

theorem closeLog_fd (m : LogMgr) (w : Nat) : (m.closeLog w).fd = false := by
  unfold LogMgr.closeLog
  split
  · rfl
  · rename_i h; simpa using h

theorem inDoubt_env (env env' : LogEnv) (h1 : env.recoveryId = env'.recoveryId) (h2 : env.config = env'.config)
    (es : List LogEntry) : inDoubt env es = inDoubt env' es := by
  unfold inDoubt
  congr 1
  funext d e
  cases e <;> simp [LogEntry.resets, LogEntry.confirms, h1, h2]

/-- A log with these entries is fine. -/
def Fine (v g : Bool) (log : Bytes) (tr : List TItem) : Prop :=
  ∃ es t, LogIs log es t ∧ QOk v g es tr ∧ HdrOk es

theorem fine_nil (v g : Bool) (tr : List TItem) : Fine v g [] tr := by
  refine ⟨[], [], ⟨[], rfl, by simp, partial_nil, rfl⟩, ?_, ?_⟩
  · intro pre ts n i sz post he; simp at he
  · intro ts w r s c hm; simp at hm

theorem compact_fine {v g : Bool} {s : LogSys} (hu : s.m.up = true) {es0 es1 : List LogEntry} {t : Bytes} {tr0 tr1 : List TItem}
    (h : Up v g s es0 es1 t tr0 tr1) (hc : s.connected = true)
    (disk : Bytes → Option Int) (tr ap : Bool) (now : Int) (w1 w2 w3 : Nat) (hnow : I63 now)
    (hdisk : ∀ n d, disk n = some d → n.length ≤ 4096 ∧ I63 d) (hfd : s.m.fd = true) :
    Fine v g (s.m.compactNow disk tr ap now w1 w2 w3).log s.tr ∧ (s.m.compactNow disk tr ap now w1 w2 w3).writer = false := by
  obtain ⟨es1', t', h', _⟩ := flush_up h w1
  have hfd' : (s.m.flush w1).fd = true := by unfold LogMgr.flush; split <;> exact hfd
  have henv' : (s.m.flush w1).env = s.m.env := by unfold LogMgr.flush; split <;> rfl
  generalize hm1 : s.m.flush w1 = m1 at *
  have hu1 : m1.up = true := by rw [← hm1]; unfold LogMgr.flush; split <;> exact hu
  obtain ⟨c1, c2, c3⟩ := h'.conn hc hfd'
  simp only at c1 c2 c3
  have hpo : ({ m1.env with disk := disk, truncateOk := tr, appendOk := ap, now := now } : LogEnv).parseOnly = false := h'.cfg.2
  unfold LogMgr.compactNow
  rw [if_pos hfd, hm1]
  simp only
  cases hp : parseLog { m1.env with disk := disk, truncateOk := tr, appendOk := ap, now := now } m1.senderIp m1.log with
  | error f => exact ⟨⟨_, _, h'.log, h'.q_all, h'.hdrOk⟩, rfl⟩
  | ok out =>
    simp only
    by_cases hi : out.status = eINVALID_LOG
    · obtain ⟨t2, hl⟩ := parse_invalid hpo h'.log hp hi
      rw [if_pos hi]
      refine ⟨?_, ?_⟩
      · rw [closeLog_noWriter rfl]
        exact ⟨_, t2, hl, h'.q_all, h'.hdrOk⟩
      · exact closeLog_writer rfl 0
    · obtain ⟨⟨lost, hl⟩, hst, hip, hsay, _⟩ := parse_known hpo hnow h'.log hp hi
      have hlost : ∀ e ∈ lost.map (LogEntry.fileInvalidation now), ∃ ts i, e = LogEntry.fileInvalidation ts i := by
        intro e he
        obtain ⟨i, _, rfl⟩ := List.mem_map.1 he
        exact ⟨_, _, rfl⟩
      have hq := h'.q_all.append_plain hlost
      have hh : HdrOk (es0 ++ es1' ++ lost.map (LogEntry.fileInvalidation now)) := h'.hdrOk.append (by
        intro e he
        obtain ⟨_, _, rfl⟩ := hlost e he
        exact Or.inl rfl)
      rw [if_neg hi]
      by_cases hin : out.status = eINCONSISTENT_DIRECTORY
      · rw [if_pos hin]
        have hts : (LogEntry.dirInvalidation now).InRange := hnow
        obtain ⟨k1, k2⟩ := write_entry hl hts w2
        unfold LogMgr.invalidateDirectory
        simp only [hfd', if_true]
        by_cases hf : fullWrite (.dirInvalidation now) w2 = true
        · rw [if_pos hf]
          exact ⟨⟨_, [], k1 hf, hq.append_dir now, hh.append (by simp)⟩, rfl⟩
        · rw [if_neg hf]
          obtain ⟨t2, hw⟩ := k2 (by simpa using hf)
          refine ⟨?_, closeLog_writer rfl 0⟩
          simp only [LogMgr.abort]
          rw [closeLog_noWriter rfl]
          exact ⟨_, t2, hw, hq, hh⟩
      · rw [if_neg hin]
        have hok : out.status = eOK := by
          rw [hst] at hin ⊢
          split
          · rename_i hx; rw [if_pos hx] at hin; exact absurd rfl hin
          · rfl
        have hdb : inDoubt { m1.env with disk := disk, truncateOk := tr, appendOk := ap, now := now } (es0 ++ es1') = false := by
          by_contra hx
          rw [if_pos (by simpa using hx)] at hst
          exact hin hst
        by_cases hall : (out.infos.all fun x => x.chunks.length == 1 && totalChunkSize x.chunks == x.fileSize) = true
        · rw [if_pos hall]
          have hsay' := hsay hok
          have hwhole : ∀ x ∈ out.infos, x.chunks = [⟨0, x.fileSize⟩] := by
            intro x hx
            have := List.all_eq_true.1 hall x hx
            simp only [Bool.and_eq_true, beq_iff_eq] at this
            obtain ⟨_, _, _, _, _, _, _, hb⟩ := hsay'.sound x hx
            exact single_whole hb this.1 this.2
          have hlen : out.senderIp ≠ [] ∧ m1.env.recoveryId.length + out.senderIp.length ≤ 4095 := by
            rw [hip]
            cases hlh : lastHdr (es0 ++ es1') with
            | none =>
              show m1.senderIp ≠ [] ∧ _
              rw [Option.map_none, Option.getD_none, c1]
              exact ⟨c2, c3⟩
            | some τ =>
              obtain ⟨ts3, w3, hm⟩ := lastHdr_mem hlh
              have hhx := h'.hdrOk _ _ _ _ _ hm
              have : τ.rid = m1.env.recoveryId := by
                by_contra hx
                have := inDoubt_of_hdr (env := { m1.env with disk := disk, truncateOk := tr, appendOk := ap, now := now }) hlh (fun hy => hx hy.1)
                rw [hdb] at this; cases this
              rw [Option.map_some, Option.getD_some, ← this]
              exact hhx
          have hrange := compacted_inRange hpo hnow h'.cfg.1 hdisk hp hok hlen.2
          have hQ := fun k => compacted_q h' { m1.env with disk := disk, truncateOk := tr, appendOk := ap, now := now } ⟨rfl, rfl⟩ hsay' hwhole out.senderIp hip now now k
          have hhr : (LogEntry.header now WLOG_VERSION m1.env.recoveryId out.senderIp m1.env.config).InRange :=
            hrange _ (by simp [compacted])
          have hce : ∀ e ∈ out.infos.flatMap (compactEntries now), e.InRange ∧ e.isAdd = true := by
            intro e he
            refine ⟨hrange e (by simp only [compacted, List.mem_cons]; exact Or.inr he), ?_⟩
            obtain ⟨x, _, hx⟩ := List.mem_flatMap.1 he
            simp only [compactEntries, List.mem_cons, List.not_mem_nil, or_false] at hx
            rcases hx with rfl | rfl <;> rfl
          have hnil : LogIs [] [] [] := ⟨[], rfl, by simp, partial_nil, rfl⟩
          obtain ⟨k1, k2⟩ := write_entry hnil hhr w2
          simp only [List.nil_append] at k1 k2
          unfold LogMgr.writeLogHeader
          simp only [hfd', if_true, List.nil_append]
          by_cases hf : fullWrite (.header now WLOG_VERSION m1.env.recoveryId out.senderIp m1.env.config) w2 = true
          · rw [if_pos hf, adds_fold (m := { log := List.take w2 (recBytes (LogEntry.header now WLOG_VERSION m1.env.recoveryId out.senderIp m1.env.config)), up := m1.up, aborted := m1.aborted, fd := true, env := m1.env, opts := m1.opts, headerWritten := true, pending := m1.pending, senderIp := out.senderIp, claims := m1.claims }) hu1 rfl rfl _ hce]
            simp only [hu1, if_true]
            refine ⟨?_, trivial⟩
            obtain ⟨k, t2, g1, _, _⟩ := write_entries (k1 hf) (ps := m1.pending ++ out.infos.flatMap (compactEntries now)) (by
              intro e he
              rcases List.mem_append.1 he with he | he
              · exact (h'.pend e he).1
              · exact (hce e he).1) w3
            refine ⟨_, t2, g1, hQ k, ?_⟩
            intro ts3 w3 r s' c hm
            rcases List.mem_append.1 hm with hm | hm
            · simp only [List.mem_singleton, LogEntry.header.injEq] at hm
              obtain ⟨_, _, rfl, rfl, rfl⟩ := hm
              exact hlen
            · rcases List.mem_append.1 (List.mem_of_mem_take hm) with hm | hm
              · have := (h'.pend _ hm).2; simp [LogEntry.plain] at this
              · have := (hce _ hm).2; simp [LogEntry.isAdd] at this
          · rw [if_neg hf]
            obtain ⟨t2, hw⟩ := k2 (by simpa using hf)
            rw [adds_closed (closeLog_fd _ 0)]
            rw [if_pos (by rw [closeLog_up]; exact hu1), if_neg (by rw [closeLog_fd]; decide)]
            refine ⟨?_, closeLog_writer rfl 0⟩
            simp only
            rw [closeLog_noWriter rfl]
            refine ⟨[], t2, hw, ?_, ?_⟩
            · intro pre ts n i sz post he; simp at he
            · intro ts w r s c hm; simp at hm
        · rw [if_neg hall]
          exact ⟨⟨_, [], hl, hq, hh⟩, rfl⟩

theorem finish_inv {v g : Bool} {s : LogSys} (hu : s.m.up = true) {es0 es1 : List LogEntry} {t : Bytes} {tr0 tr1 : List TItem}
    (h : Up v g s es0 es1 t tr0 tr1) (ok : Bool) (disk : Bytes → Option Int) (tr ap : Bool) (now : Int) (wh w1 w2 w3 wc : Nat)
    (ha : s.Allowed (.finish ok disk tr ap now wh w1 w2 w3 wc)) :
    Inv v g (s.step (.finish ok disk tr ap now wh w1 w2 w3 wc)) := by
  obtain ⟨_, hnow, hok, hdisk⟩ := ha
  have hnow' : I63 now := hnow
  have hdisk' : ∀ n d, disk n = some d → n.length ≤ 4096 ∧ I63 d := hdisk
  have hmain : Fine v g (s.m.finish ok disk tr ap now wh w1 w2 w3 wc).log s.tr ∧ (s.m.finish ok disk tr ap now wh w1 w2 w3 wc).up = false := by
    have hcl : ∀ {m : LogMgr} (P : Bool), m.up = true → Fine v g (m.closeLog wc).log s.tr →
        Fine v g (if P then { { m.closeLog wc with up := false } with log := [] } else { m.closeLog wc with up := false } : LogMgr).log s.tr ∧
        (if P then { { m.closeLog wc with up := false } with log := [] } else { m.closeLog wc with up := false } : LogMgr).up = false := by
      intro m P _ hf
      cases P
      · exact ⟨hf, rfl⟩
      · exact ⟨fine_nil v g s.tr, rfl⟩
    unfold LogMgr.finish
    simp only
    by_cases ha : (ok && decide (s.m.status = eINCONSISTENT_DIRECTORY) && !s.m.env.dirTree) = true
    · rw [if_pos ha]
      exact ⟨⟨_, _, h.log, h.q_all, h.hdrOk⟩, rfl⟩
    · rw [if_neg ha]
      by_cases hb : (ok && decide (s.m.status = eINCONSISTENT_DIRECTORY)) = true
      · rw [if_pos hb]
        have hdt : s.m.env.dirTree = true := by
          by_contra hx
          exact ha (by rw [hb]; simp [hx])
        have hcd : ∀ {m : LogMgr}, m.env.dirTree = true → (m.closeLog wc).log = m.log := by
          intro m hm
          unfold LogMgr.closeLog
          by_cases hx : m.fd = true
          · simp only [hx, if_true, hm]
          · simp only [hx, Bool.false_eq_true, if_false]
        have hc := hok (by simp only [Bool.and_eq_true] at hb; exact hb.1)
        have hw : Fine v g (s.m.writeLogHeader now wh 0).log s.tr ∧ (s.m.writeLogHeader now wh 0).up = true ∧
            (s.m.writeLogHeader now wh 0).env.dirTree = true := by
          unfold LogMgr.writeLogHeader
          by_cases hfd : s.m.fd = true
          · rw [if_pos hfd]
            have ht := h.torn hfd (Or.inr (Or.inr hdt))
            subst ht
            have husable : s.usable = true := by
              by_contra hus
              have := (h.unusable (by simpa using hus)).1
              rw [hfd] at this; cases this
            obtain ⟨c1, c2, c3⟩ := h.conn hc hfd
            have hrange : (LogEntry.header now WLOG_VERSION s.m.env.recoveryId s.m.senderIp s.m.env.config).InRange := by
              rw [c1]
              refine ⟨hnow, ?_, h.cfg.1, c3⟩
              constructor <;> decide
            obtain ⟨k1, k2⟩ := write_entry h.log hrange wh
            simp only
            by_cases hf : fullWrite (.header now WLOG_VERSION s.m.env.recoveryId s.m.senderIp s.m.env.config) wh = true
            · rw [if_pos hf]
              refine ⟨⟨_, [], k1 hf, ?_, ?_⟩, hu, hdt⟩
              · rw [c1]
                exact h.q_all.append_hdr now WLOG_VERSION s.tag (h.same_tag husable hc)
              · intro ts3 w3 r s' c hm
                rcases List.mem_append.1 hm with hm | hm
                · exact h.hdrOk _ _ _ _ _ hm
                · simp only [List.mem_singleton, LogEntry.header.injEq] at hm
                  obtain ⟨_, _, rfl, rfl, rfl⟩ := hm
                  rw [c1]; exact ⟨c2, c3⟩
            · rw [if_neg hf]
              obtain ⟨t2, hw⟩ := k2 (by simpa using hf)
              unfold LogMgr.closeLog
              simp only [hfd, if_true, hdt]
              exact ⟨⟨_, t2, hw, h.q_all, h.hdrOk⟩, hu, trivial⟩
          · rw [if_neg hfd]
            exact ⟨⟨_, _, h.log, h.q_all, h.hdrOk⟩, hu, hdt⟩
        obtain ⟨hw1, hw2, hw3⟩ := hw
        rw [if_neg (c := ((s.m.writeLogHeader now wh 0).opts.compact && ok && !decide (s.m.status = eINVALID_LOG) && (s.m.writeLogHeader now wh 0).opts.keepLog && !(s.m.writeLogHeader now wh 0).env.dirTree) = true) (by rw [hw3]; simp), if_pos hw2]
        apply hcl _ hw2
        rw [hcd hw3]; exact hw1
      · rw [if_neg hb]
        by_cases hcp : (s.m.opts.compact && ok && !decide (s.m.status = eINVALID_LOG) && s.m.opts.keepLog && !s.m.env.dirTree) = true
        · rw [if_pos hcp]
          by_cases hfd : s.m.fd = true
          · have hc := hok (by simp only [Bool.and_eq_true] at hcp; exact hcp.1.1.1.2)
            obtain ⟨k1, k2⟩ := compact_fine hu h hc disk tr ap now w1 w2 w3 hnow' hdisk' hfd
            by_cases hup : (s.m.compactNow disk tr ap now w1 w2 w3).up = true
            · rw [if_pos hup]
              apply hcl _ hup
              rw [closeLog_noWriter k2]; exact k1
            · rw [if_neg hup]
              exact ⟨k1, by simpa using hup⟩
          · have hcn : s.m.compactNow disk tr ap now w1 w2 w3 = s.m := by
              unfold LogMgr.compactNow; rw [if_neg hfd]
            rw [hcn, if_pos hu]
            apply hcl _ hu
            have : (s.m.closeLog wc).log = s.m.log := by
              unfold LogMgr.closeLog; rw [if_neg hfd]
            rw [this]
            exact ⟨_, _, h.log, h.q_all, h.hdrOk⟩
        · rw [if_neg hcp, if_pos hu]
          apply hcl _ hu
          rcases closeLog_log s.m wc with hx | hx
          · rw [hx]; exact ⟨_, _, h.log, h.q_all, h.hdrOk⟩
          · rw [hx]
            obtain ⟨es1', t', h', _⟩ := flush_up h wc
            exact ⟨_, _, h'.log, h'.q_all, h'.hdrOk⟩
  exact Inv.down hmain.2 hmain.1

/-- What can happen in a history: with `v`, the address of the sender is verified by every
process; with `g`, data is written only after the kind of the sender was settled, by a
process that found the log usable. -/
def LogSys.Guard (v g : Bool) (s : LogSys) : LogOp → Prop
  | .boot _ opts _ _ _ => v = true → opts.verifyOff = false
  | .data => g = true → s.settled = true ∧ s.usable = true
  | _ => True

/-- Histories, starting with an empty directory. -/
inductive LogReach (v g : Bool) : LogSys → Prop
  | init (env : LogEnv) : LogReach v g { m := { env := env } }
  | step {s : LogSys} (op : LogOp) : LogReach v g s → s.Allowed op → s.Guard v g op → LogReach v g (s.step op)

theorem reach_inv {v g : Bool} {s : LogSys} (h : LogReach v g s) : Inv v g s := by
  induction h with
  | init env => exact Inv.down rfl (fine_nil v g [])
  | @step s op _ ha hg ih =>
    cases op with
    | boot env opts tree ts w => exact boot_inv (ih.2 ha.1) env opts tree ts w ha hg
    | connect ip res ts w wc =>
      obtain ⟨es0, es1, t, tr0, tr1, hu⟩ := ih.1 ha.1
      exact connect_inv ha.1 hu ip res ts w wc ha
    | settle bm ts1 ts2 w1 w2 wc =>
      obtain ⟨es0, es1, t, tr0, tr1, hu⟩ := ih.1 ha.1
      exact settle_inv ha.1 hu bm ts1 ts2 w1 w2 wc ha
    | add e =>
      obtain ⟨es0, es1, t, tr0, tr1, hu⟩ := ih.1 ha.1
      exact add_inv ha.1 hu e ha
    | data =>
      obtain ⟨es0, es1, t, tr0, tr1, hu⟩ := ih.1 ha.1
      exact data_inv ha.1 hu ha.2 hg
    | flush w =>
      obtain ⟨es0, es1, t, tr0, tr1, hu⟩ := ih.1 ha.1
      exact flush_inv ha.1 hu w
    | finish ok disk tr ap now wh w1 w2 w3 wc =>
      obtain ⟨es0, es1, t, tr0, tr1, hu⟩ := ih.1 ha.1
      exact finish_inv ha.1 hu ok disk tr ap now wh w1 w2 w3 wc ha
    | kill =>
      obtain ⟨es0, es1, t, tr0, tr1, hu⟩ := ih.1 ha
      exact kill_inv hu

end Wdt
