import Verif.Lemmas.ResumeData
/-
The invariant of Model/Resume holds in every history.
-/
namespace Wdt

/-- A log that tells the truth. -/
def Fair (src : Tag → Bytes → Option Bytes) (files : Bytes → Option Bytes) (safe : Bytes → Nat → Bool) (log : Bytes) : Prop :=
  ∃ es t, LogIs log es t ∧ Honest src files safe es ∧ OneName es

theorem no_live_nil {env : LogEnv} {i : Int} {n : Bytes} {sz : Int} {r : List Interval} : ¬ Live env [] i n sz r := by
  rintro ⟨pre, ts, post, h, _⟩
  simp at h

theorem fair_nil (src : Tag → Bytes → Option Bytes) (files : Bytes → Option Bytes) (safe : Bytes → Nat → Bool) : Fair src files safe [] :=
  ⟨[], [], ⟨[], rfl, by simp, partial_nil, rfl⟩, fun _ _ _ _ _ h => absurd h no_live_nil, fun _ _ _ _ _ _ _ _ h => absurd h no_live_nil⟩

/-- The entries of a compacted log. -/
theorem compacted_fair {src : Tag → Bytes → Option Bytes} {v : Bool} {S : DirSys} {es0 es1 : List LogEntry} {t : Bytes} {tr0 tr1 : List TItem}
    (h : Up v true S.s es0 es1 t tr0 tr1) (hf : Run src v S (es0 ++ es1)) (hus : S.s.usable = true)
    (env : LogEnv) (henv : env.recoveryId = S.s.m.env.recoveryId ∧ env.config = S.s.m.env.config) (hdisk : env.disk = S.sizes)
    {infos : List FileChunksInfo} (hsay : Says env (es0 ++ es1) infos)
    (hwhole : ∀ x ∈ infos, x.chunks = [⟨0, x.fileSize⟩]) (ip : Bytes)
    (hip : ip = ((lastHdr (es0 ++ es1)).map Tag.ip).getD S.s.m.senderIp) (ts now : Int) (k : Nat) :
    Honest src S.files S.safe (.header ts WLOG_VERSION S.s.m.env.recoveryId ip S.s.m.env.config :: (S.s.m.pending ++ infos.flatMap (compactEntries now)).take k) ∧
    OneName (.header ts WLOG_VERSION S.s.m.env.recoveryId ip S.s.m.env.config :: (S.s.m.pending ++ infos.flatMap (compactEntries now)).take k) := by
  rw [← List.singleton_append, List.take_append]
  generalize hE : [LogEntry.header ts WLOG_VERSION S.s.m.env.recoveryId ip S.s.m.env.config] ++
    (S.s.m.pending.take k ++ (infos.flatMap (compactEntries now)).take (k - S.s.m.pending.length)) = E
  have hple : ∀ e ∈ S.s.m.pending.take k, e.plain = true := fun e hm => (h.pend e (List.mem_of_mem_take hm)).2
  have hcle : ∀ e ∈ (infos.flatMap (compactEntries now)).take (k - S.s.m.pending.length), e.plain = true := by
    intro e hm
    obtain ⟨x, _, hx⟩ := List.mem_flatMap.1 (List.mem_of_mem_take hm)
    simp only [compactEntries, List.mem_cons, List.not_mem_nil, or_false] at hx
    rcases hx with rfl | rfl <;> rfl
  have hlast : lastHdr E = some ⟨S.s.m.env.recoveryId, S.s.m.env.config, ip⟩ := by
    rw [← hE, lastHdr_append, plain_no_hdr]
    · rfl
    · intro e he
      rcases List.mem_append.1 he with he | he
      · exact hple e he
      · exact hcle e he
  have hn0 : Honest src S.files S.safe (es0 ++ es1) := by simpa using hf.hon [] List.nil_prefix
  have ho0 : OneName (es0 ++ es1) := by simpa using hf.one [] List.nil_prefix
  -- where something live comes from
  have key : ∀ env' i n sz r, Live env' E i n sz r →
      (S.s.m.headerWritten = true ∧ Live env' (es0 ++ es1 ++ S.s.m.pending.take k) i n sz r) ∨
      (∃ x ∈ infos, x.seqId = i ∧ x.fileName = n ∧ env'.recoveryId = env.recoveryId ∧ env'.config = env.config ∧
        ∀ p : Int, Covered r p → 0 ≤ p ∧ p < x.fileSize) := by
    intro env' i n sz r ⟨pre, ts1, post, h1, h2, h3, h4⟩
    rw [← hE] at h1
    have hids : ∀ p : List LogEntry, pre = [LogEntry.header ts WLOG_VERSION S.s.m.env.recoveryId ip S.s.m.env.config] ++ p →
        (∀ e ∈ p, e.plain = true) → S.s.m.env.recoveryId = env'.recoveryId ∧ S.s.m.env.config = env'.config := by
      intro p hp hpl
      by_contra hx
      have hl : lastHdr pre = some ⟨S.s.m.env.recoveryId, S.s.m.env.config, ip⟩ := by
        rw [hp, lastHdr_append, plain_no_hdr hpl]; rfl
      have := inDoubt_of_hdr (env := env') hl hx
      rw [h2] at this; cases this
    rcases split_append h1 with ⟨p, g1, g2⟩ | ⟨p, g1, g2⟩
    · have : LogEntry.fileCreation ts1 n i sz ∈ [LogEntry.header ts WLOG_VERSION S.s.m.env.recoveryId ip S.s.m.env.config] := by rw [g1]; simp
      simp at this
    · rcases split_append g2 with ⟨q, k1, k2⟩ | ⟨q, k1, k2⟩
      · -- an entry that was still pending
        refine Or.inl ?_
        have hin : LogEntry.fileCreation ts1 n i sz ∈ S.s.m.pending := List.mem_of_mem_take (i := k) (by rw [k1]; simp)
        have hhw := h.pendHw _ hin rfl
        have hpl : ∀ e ∈ p, e.plain = true := fun e hm => hple e (by rw [k1]; simp [hm])
        obtain ⟨j1, j2⟩ := hids p g1 hpl
        refine ⟨hhw, es0 ++ es1 ++ p, ts1, q, by rw [k1]; simp, ?_, ?_, ?_⟩
        · rw [inDoubt_plain _ _ _ hpl, ← inDoubt_env S.s.m.env env' j1 j2]
          exact hf.top hhw
        · intro e he; exact h3 e (by rw [k2]; simp [he])
        · rw [h4, k2, List.flatMap_append]
          have : ((infos.flatMap (compactEntries now)).take (k - S.s.m.pending.length)).flatMap (LogEntry.range i) = [] := by
            rw [List.flatMap_eq_nil_iff]
            intro e he
            cases e with
            | blockWrite ts2 j o z =>
              simp only [LogEntry.range]
              split
              · rename_i hj; subst hj
                obtain ⟨ts3, n3, sz3, hx⟩ := compact_block_created now infos _ he
                have := h3 _ (by rw [k2]; exact List.mem_append_right _ hx)
                simp [LogEntry.endsFile] at this
              · rfl
            | _ => rfl
          rw [this, List.append_nil]
      · -- an entry of the compaction
        refine Or.inr ?_
        have hpl : ∀ e ∈ p, e.plain = true := by
          intro e hm
          rw [k1] at hm
          rcases List.mem_append.1 hm with hm | hm
          · exact hple e hm
          · exact hcle e (by rw [k2]; simp [hm])
        obtain ⟨j1, j2⟩ := hids p g1 hpl
        have hin : LogEntry.fileCreation ts1 n i sz ∈ infos.flatMap (compactEntries now) :=
          List.mem_of_mem_take (i := k - S.s.m.pending.length) (by rw [k2]; simp)
        obtain ⟨x, hx, hm⟩ := List.mem_flatMap.1 hin
        simp only [compactEntries, List.mem_cons, LogEntry.fileCreation.injEq, reduceCtorEq, List.not_mem_nil, or_false] at hm
        obtain ⟨_, rfl, rfl, rfl⟩ := hm
        refine ⟨x, hx, rfl, rfl, by rw [← j1, henv.1], by rw [← j2, henv.2], ?_⟩
        intro pos ⟨c, hc, hp1, hp2⟩
        rw [h4] at hc
        obtain ⟨e, he, hr⟩ := List.mem_flatMap.1 hc
        cases e with
        | blockWrite ts2 j o z =>
          simp only [LogEntry.range] at hr
          split at hr
          · rename_i hj; subst hj
            rw [List.mem_singleton] at hr; subst hr
            have hin2 : LogEntry.blockWrite ts2 x.seqId o z ∈ infos.flatMap (compactEntries now) :=
              List.mem_of_mem_take (i := k - S.s.m.pending.length) (by rw [k2]; simp [he])
            obtain ⟨y, hy, hm⟩ := List.mem_flatMap.1 hin2
            simp only [compactEntries, List.mem_cons, LogEntry.blockWrite.injEq, reduceCtorEq, List.not_mem_nil, or_false, false_or] at hm
            obtain ⟨_, hid, rfl, rfl⟩ := hm
            have hxy : x = y := asc_unique hsay.ascending hx hy hid
            subst hxy
            simp only at hp1 hp2
            exact ⟨hp1, by omega⟩
          · simp at hr
        | _ => simp [LogEntry.range] at hr
  have hset : S.s.m.headerWritten = true → S.s.settled = true := by
    intro hx
    by_contra hc
    have := (h.fresh (by simpa using hc)).2.1
    rw [hx] at this; cases this
  constructor
  · intro env' i n sz r hlive τ hτ hne
    rw [hlast] at hτ
    cases hτ
    rcases key _ _ _ _ _ hlive with ⟨k1, k2⟩ | ⟨x, hx, rfl, rfl, j1, j2, hcov⟩
    · have hl2 : lastHdr (es0 ++ es1 ++ S.s.m.pending.take k) = some S.s.tag := by
        rw [lastHdr_plain _ _ hple, lastHdr_append, h.hw k1]; rfl
      have htag : (⟨S.s.m.env.recoveryId, S.s.m.env.config, ip⟩ : Tag) = S.s.tag := by
        rw [hip, lastHdr_append, h.hw k1]; rfl
      rw [htag]
      exact hf.hon _ (List.take_prefix ..) _ _ _ _ _ k2 _ hl2 hne
    · obtain ⟨size, ranges, hl, d1, _, _, hc, hbd⟩ := hsay.sound x hx
      obtain ⟨τ, l1, l2, l3⟩ := live_last h.q_all hl
      have htag : (⟨S.s.m.env.recoveryId, S.s.m.env.config, ip⟩ : Tag) = τ := by
        have : ip = τ.ip := by rw [hip, l1]; rfl
        rw [this, ← henv.1, ← henv.2, ← l2, ← l3]
      rw [htag]
      obtain ⟨c, s, q1, q2, q3, q4⟩ := hn0 env _ _ _ _ hl τ l1 hne
      refine ⟨c, s, q1, q2, q3, fun p hp => q4 p ((hc p).1 ?_)⟩
      rw [hwhole x hx]
      obtain ⟨a1, a2⟩ := hcov p hp
      exact ⟨_, List.mem_singleton.2 rfl, a1, a2⟩
  · intro env' i i' n sz sz' r r' h1 h2
    have hk : ∀ i r sz, Live env' E i n sz r → S.s.m.headerWritten = true → S.Known i n := by
      intro i r sz hl hhw
      rcases key _ _ _ _ _ hl with ⟨k1, k2⟩ | ⟨x, hx, rfl, rfl, j1, j2, _⟩
      · exact hf.kn (hset k1) hus _ (List.take_prefix ..) _ _ _ _ _ k2
      · obtain ⟨size, ranges, hl, _⟩ := hsay.sound x hx
        exact hf.kn (hset hhw) hus [] List.nil_prefix _ _ _ _ _ (by simpa using hl)
    by_cases hhw : S.s.m.headerWritten = true
    · exact (hf.unique hus (hk _ _ _ h1 hhw) (hk _ _ _ h2 hhw) (Or.inr rfl)).1
    · rcases key _ _ _ _ _ h1 with ⟨k1, _⟩ | ⟨x, hx, rfl, hn, _⟩
      · exact absurd k1 hhw
      rcases key _ _ _ _ _ h2 with ⟨k1, _⟩ | ⟨y, hy, rfl, hn', _⟩
      · exact absurd k1 hhw
      obtain ⟨_, _, hlx, _⟩ := hsay.sound x hx
      obtain ⟨_, _, hly, _⟩ := hsay.sound y hy
      rw [hn] at hlx
      rw [hn'] at hly
      exact ho0 env _ _ _ _ _ _ _ hlx hly

theorem compact_fair {src : Tag → Bytes → Option Bytes} {v : Bool} {S : DirSys} (hu : S.s.m.up = true) {es0 es1 : List LogEntry} {t : Bytes}
    {tr0 tr1 : List TItem} (h : Up v true S.s es0 es1 t tr0 tr1) (hf : Run src v S (es0 ++ es1)) (hc : S.s.connected = true)
    (tr ap : Bool) (now : Int) (w1 w2 w3 : Nat) (hnow : I63 now)
    (hdisk : ∀ n d, S.sizes n = some d → n.length ≤ 4096 ∧ I63 d) (hfd : S.s.m.fd = true) :
    Fair src S.files S.safe (S.s.m.compactNow S.sizes tr ap now w1 w2 w3).log ∧ (S.s.m.compactNow S.sizes tr ap now w1 w2 w3).writer = false := by
  have hus : S.s.usable = true := by
    by_contra hx
    have := (h.unusable (by simpa using hx)).1
    rw [hfd] at this; cases this
  obtain ⟨l, tf, hfl, hfr⟩ := dir_flush_run h hf w1
  obtain ⟨es1', t', h', _⟩ := flush_up h w1
  obtain ⟨hfd', henv', _, hup', _, _⟩ := flush_same S.s.m w1
  have hll := logIs_unique hfl h'.log
  rw [hll.1] at hfr
  rw [hfd] at hfd'
  rw [hu] at hup'
  have hsz : ({ S with s := { S.s with m := S.s.m.flush w1 } } : DirSys).sizes = S.sizes := rfl
  generalize hm1 : S.s.m.flush w1 = m1 at *
  have hu1 : m1.up = true := hup'
  obtain ⟨c1, c2, c3⟩ := h'.conn hc hfd'
  simp only at c1 c2 c3
  have hn0 : Honest src S.files S.safe (es0 ++ es1') := by simpa using hfr.hon [] List.nil_prefix
  have ho0 : OneName (es0 ++ es1') := by simpa using hfr.one [] List.nil_prefix
  have hpo : ({ m1.env with disk := S.sizes, truncateOk := tr, appendOk := ap, now := now } : LogEnv).parseOnly = false := h'.cfg.2
  unfold LogMgr.compactNow
  rw [if_pos hfd, hm1]
  simp only
  cases hp : parseLog { m1.env with disk := S.sizes, truncateOk := tr, appendOk := ap, now := now } m1.senderIp m1.log with
  | error f => exact ⟨⟨_, _, h'.log, hn0, ho0⟩, rfl⟩
  | ok out =>
    simp only
    by_cases hi : out.status = eINVALID_LOG
    · obtain ⟨t2, hl⟩ := parse_invalid hpo h'.log hp hi
      rw [if_pos hi]
      refine ⟨?_, ?_⟩
      · rw [closeLog_noWriter rfl]
        exact ⟨_, t2, hl, hn0, ho0⟩
      · exact closeLog_writer rfl 0
    · obtain ⟨⟨lost, hl⟩, hst, hip, hsay, _⟩ := parse_known hpo hnow h'.log hp hi
      have hlost := quiet_invals now lost
      have hh := hn0.quiets hlost
      have ho := ho0.quiets hlost
      rw [if_neg hi]
      by_cases hin : out.status = eINCONSISTENT_DIRECTORY
      · rw [if_pos hin]
        have hts : (LogEntry.dirInvalidation now).InRange := hnow
        obtain ⟨k1, k2⟩ := write_entry hl hts w2
        unfold LogMgr.invalidateDirectory
        simp only [hfd', if_true]
        by_cases hfw : fullWrite (.dirInvalidation now) w2 = true
        · rw [if_pos hfw]
          exact ⟨⟨_, [], k1 hfw, Honest.dir _ _, OneName.dir _ _⟩, rfl⟩
        · rw [if_neg hfw]
          obtain ⟨t2, hw⟩ := k2 (by simpa using hfw)
          refine ⟨?_, closeLog_writer rfl 0⟩
          simp only [LogMgr.abort]
          rw [closeLog_noWriter rfl]
          exact ⟨_, t2, hw, hh, ho⟩
      · rw [if_neg hin]
        have hok : out.status = eOK := by
          rw [hst] at hin ⊢
          split
          · rename_i hx; rw [if_pos hx] at hin; exact absurd rfl hin
          · rfl
        have hdb : inDoubt { m1.env with disk := S.sizes, truncateOk := tr, appendOk := ap, now := now } (es0 ++ es1') = false := by
          by_contra hx
          rw [if_pos (by simpa using hx)] at hst
          exact hin hst
        by_cases hall : (out.infos.all fun x => x.chunks.length == 1 && totalChunkSize x.chunks == x.fileSize) = true
        · rw [if_pos hall]
          have hsay' := hsay hok
          have hwhole : ∀ x ∈ out.infos, x.chunks = [⟨0, x.fileSize⟩] := by
            intro x hx
            have := List.all_eq_true.1 hall x hx
            simp only [Bool.and_eq_true, beq_iff_eq] at this
            obtain ⟨_, _, _, _, _, _, _, hb⟩ := hsay'.sound x hx
            exact single_whole hb this.1 this.2
          have hlen : out.senderIp ≠ [] ∧ m1.env.recoveryId.length + out.senderIp.length ≤ 4095 := by
            rw [hip]
            cases hlh : lastHdr (es0 ++ es1') with
            | none =>
              show m1.senderIp ≠ [] ∧ _
              rw [Option.map_none, Option.getD_none, c1]
              exact ⟨c2, c3⟩
            | some τ =>
              obtain ⟨ts3, w3, hm⟩ := lastHdr_mem hlh
              have hhx := h'.hdrOk _ _ _ _ _ hm
              have : τ.rid = m1.env.recoveryId := by
                by_contra hx
                have := inDoubt_of_hdr (env := { m1.env with disk := S.sizes, truncateOk := tr, appendOk := ap, now := now }) hlh (fun hy => hx hy.1)
                rw [hdb] at this; cases this
              rw [Option.map_some, Option.getD_some, ← this]
              exact hhx
          have hrange := compacted_inRange hpo hnow h'.cfg.1 hdisk hp hok hlen.2
          have hQ := fun k => compacted_fair h' hfr hus { m1.env with disk := S.sizes, truncateOk := tr, appendOk := ap, now := now } ⟨rfl, rfl⟩ rfl hsay' hwhole out.senderIp hip now now k
          have hhr : (LogEntry.header now WLOG_VERSION m1.env.recoveryId out.senderIp m1.env.config).InRange :=
            hrange _ (by simp [compacted])
          have hce : ∀ e ∈ out.infos.flatMap (compactEntries now), e.InRange ∧ e.isAdd = true := by
            intro e he
            refine ⟨hrange e (by simp only [compacted, List.mem_cons]; exact Or.inr he), ?_⟩
            obtain ⟨x, _, hx⟩ := List.mem_flatMap.1 he
            simp only [compactEntries, List.mem_cons, List.not_mem_nil, or_false] at hx
            rcases hx with rfl | rfl <;> rfl
          have hnil : LogIs [] [] [] := ⟨[], rfl, by simp, partial_nil, rfl⟩
          obtain ⟨k1, k2⟩ := write_entry hnil hhr w2
          simp only [List.nil_append] at k1 k2
          unfold LogMgr.writeLogHeader
          simp only [hfd', if_true, List.nil_append]
          by_cases hfw : fullWrite (.header now WLOG_VERSION m1.env.recoveryId out.senderIp m1.env.config) w2 = true
          · rw [if_pos hfw, adds_fold (m := { log := List.take w2 (recBytes (LogEntry.header now WLOG_VERSION m1.env.recoveryId out.senderIp m1.env.config)), up := m1.up, aborted := m1.aborted, fd := true, env := m1.env, opts := m1.opts, headerWritten := true, pending := m1.pending, senderIp := out.senderIp, claims := m1.claims }) hu1 rfl rfl _ hce]
            simp only [hu1, if_true]
            refine ⟨?_, trivial⟩
            obtain ⟨k, t2, g1, _, _⟩ := write_entries (k1 hfw) (ps := m1.pending ++ out.infos.flatMap (compactEntries now)) (by
              intro e he
              rcases List.mem_append.1 he with he | he
              · exact (h'.pend e he).1
              · exact (hce e he).1) w3
            exact ⟨_, t2, g1, (hQ k).1, (hQ k).2⟩
          · rw [if_neg hfw]
            obtain ⟨t2, hw⟩ := k2 (by simpa using hfw)
            rw [adds_closed (closeLog_fd _ 0)]
            rw [if_pos (by rw [closeLog_up]; exact hu1), if_neg (by rw [closeLog_fd]; decide)]
            refine ⟨?_, closeLog_writer rfl 0⟩
            simp only
            rw [closeLog_noWriter rfl]
            exact ⟨[], t2, hw, fun _ _ _ _ _ h => absurd h no_live_nil, fun _ _ _ _ _ _ _ _ h => absurd h no_live_nil⟩
        · rw [if_neg hall]
          exact ⟨⟨_, [], hl, hh, ho⟩, rfl⟩

theorem dir_finish {src : Tag → Bytes → Option Bytes} {v : Bool} {S : DirSys} (hu : S.s.m.up = true) {es0 es1 : List LogEntry} {t : Bytes}
    {tr0 tr1 : List TItem} (h : Up v true S.s es0 es1 t tr0 tr1) (hf : Run src v S (es0 ++ es1))
    (ok : Bool) (tr ap : Bool) (now : Int) (wh w1 w2 w3 wc : Nat)
    (ha : S.s.Allowed (.finish ok S.sizes tr ap now wh w1 w2 w3 wc)) :
    DirInv src v (S.step src (.log (.finish ok S.sizes tr ap now wh w1 w2 w3 wc))) := by
  obtain ⟨_, hnow, hok, hdisk⟩ := ha
  have hn0 : Honest src S.files S.safe (es0 ++ es1) := by simpa using hf.hon [] List.nil_prefix
  have ho0 : OneName (es0 ++ es1) := by simpa using hf.one [] List.nil_prefix
  have hfair : Fair src S.files S.safe S.s.m.log := ⟨_, _, h.log, hn0, ho0⟩
  have hcl : ∀ {m : LogMgr} (P : Bool), Fair src S.files S.safe (m.closeLog wc).log →
      Fair src S.files S.safe (if P then { { m.closeLog wc with up := false } with log := [] } else { m.closeLog wc with up := false } : LogMgr).log := by
    intro m P hf
    cases P
    · exact hf
    · exact fair_nil _ _ _
  have hmain : Fair src S.files S.safe (S.s.m.finish ok S.sizes tr ap now wh w1 w2 w3 wc).log := by
    unfold LogMgr.finish
    simp only
    by_cases ha : (ok && decide (S.s.m.status = eINCONSISTENT_DIRECTORY) && !S.s.m.env.dirTree) = true
    · rw [if_pos ha]; exact hfair
    · rw [if_neg ha]
      have hb : ¬ (ok && decide (S.s.m.status = eINCONSISTENT_DIRECTORY)) = true := by
        intro hb
        exact ha (by rw [hb, hf.dt]; rfl)
      rw [if_neg hb]
      by_cases hcp : (S.s.m.opts.compact && ok && !decide (S.s.m.status = eINVALID_LOG) && S.s.m.opts.keepLog && !S.s.m.env.dirTree) = true
      · rw [if_pos hcp]
        by_cases hfd : S.s.m.fd = true
        · have hc := hok (by simp only [Bool.and_eq_true] at hcp; exact hcp.1.1.1.2)
          obtain ⟨k1, k2⟩ := compact_fair hu h hf hc tr ap now w1 w2 w3 hnow hdisk hfd
          by_cases hup : (S.s.m.compactNow S.sizes tr ap now w1 w2 w3).up = true
          · rw [if_pos hup]
            apply hcl
            rw [closeLog_noWriter k2]; exact k1
          · rw [if_neg hup]; exact k1
        · have hcn : S.s.m.compactNow S.sizes tr ap now w1 w2 w3 = S.s.m := by
            unfold LogMgr.compactNow; rw [if_neg hfd]
          rw [hcn, if_pos hu]
          apply hcl
          have : (S.s.m.closeLog wc).log = S.s.m.log := by
            unfold LogMgr.closeLog; rw [if_neg hfd]
          rw [this]; exact hfair
      · rw [if_neg hcp, if_pos hu]
        apply hcl
        rcases closeLog_log S.s.m wc with hx | hx
        · rw [hx]; exact hfair
        · rw [hx]
          obtain ⟨l, t', g1, g2⟩ := dir_flush_run h hf wc
          exact ⟨_, _, g1, by simpa using g2.hon [] List.nil_prefix, by simpa using g2.one [] List.nil_prefix⟩
  obtain ⟨es, t2, g1, g2, g3⟩ := hmain
  exact DirInv.down (finish_down ..) g1 g2 g3

theorem allowed_after {s : LogSys} {e e' : LogEntry} (h : s.Allowed (.add e)) (h' : s.Allowed (.add e')) :
    (s.step (.add e)).Allowed (.add e') := by
  have hup : (s.m.add e).up = s.m.up := by
    rcases add_cases h with hx | ⟨hx, _⟩ <;> rw [hx]
  refine ⟨by simp only [LogSys.step, hup]; exact h'.1, h'.2.1, ?_⟩
  have := h'.2.2
  cases e' <;> exact this

theorem logReach_adds {v : Bool} (l : List LogEntry) : ∀ {s : LogSys}, LogReach v true s → (∀ e ∈ l, s.Allowed (.add e)) →
    LogReach v true (l.foldl (fun s e => s.step (.add e)) s) := by
  induction l with
  | nil => intro s h _; exact h
  | cons e l ih =>
    intro s h ha
    rw [List.foldl_cons]
    refine ih (.step _ h (ha e (by simp)) trivial) (fun e' he' => ?_)
    exact allowed_after (ha e (by simp)) (ha e' (by simp [he']))

theorem DirReach.logReach {src : Tag → Bytes → Option Bytes} {v : Bool} {S : DirSys} (h : DirReach src v true S) : LogReach v true S.s := by
  induction h with
  | init env files safe fits => exact .init env
  | @step S op _ hok ih =>
    cases op with
    | log op =>
      obtain ⟨h1, h2⟩ := hok
      have : (S.step src (.log op)).s = S.s.step op := by cases op <;> rfl
      rw [this]
      refine .step op ih h1 ?_
      cases op with
      | boot env opts tree ts w => exact h2.2.2
      | data => exact absurd h2 (by simp)
      | _ => trivial
    | size n q => exact .step .data ih hok.1 hok.2.1
    | fail n q f => exact .step .data ih hok.1 hok.2.1
    | entries ts n q => exact logReach_adds _ ih hok.2.2.2
    | write n off len => exact .step .data ih hok.1 hok.2.1
    | block ts n q off len => exact .step _ ih hok.1 trivial
    | unlink n => exact .step .data ih hok.1 hok.2.1
    | vanish n => exact ih
    | sync n => exact ih
    | power f => exact ih

theorem dir_entries {src : Tag → Bytes → Option Bytes} {v : Bool} {S : DirSys} (hu : S.s.m.up = true)
    {es0 es1 : List LogEntry} {t : Bytes} {tr0 tr1 : List TItem}
    (hU : Up v true S.s es0 es1 t tr0 tr1) (h : Run src v S (es0 ++ es1)) (ts : Int) (n : Bytes) (q : Int) (hok : S.Ok src v true (.entries ts n q)) :
    DirInv src v (S.step src (.entries ts n q)) := by
  obtain ⟨ho, hr, hg, ha⟩ := hok
  obtain ⟨hset, hus⟩ := hg rfl
  have hready : ∀ {T : DirSys}, T.s.settled = true → Run src v T (es0 ++ es1) → Run src v { T with ready := T.ready ++ [q] } (es0 ++ es1) := by
    intro T hs hT
    refine ⟨hT.hon, hT.one, hT.cl, hT.cu, hT.kn0, hT.kn, hT.top, fun hx => ?_, hT.t1, hT.t2, hT.kp, hT.rd, ?_, hT.go, hT.dt⟩
    · simp only [hs] at hx; cases hx
    · intro w hw
      obtain ⟨⟨q', k1, k2⟩, k3⟩ := hT.wr w hw
      exact ⟨⟨q', List.mem_append_left _ k1, k2⟩, k3⟩
  simp only [DirSys.step]
  by_cases hs1 : S.status n (S.src src n).length = NOT_EXISTS
  · have he : S.sizeEntries ts n q (S.src src n).length = [.fileCreation ts n q (S.src src n).length] := by
      unfold DirSys.sizeEntries; rw [if_pos hs1]
    rw [he] at ha ⊢
    have ha' := ha _ (List.mem_singleton.2 rfl)
    have := h.hand_creation hU ha' hset hus ho
    obtain ⟨f1, f2, _⟩ := S.hand_fields _ ha'
    exact DirInv.up (S := { S.hand (.fileCreation ts n q (S.src src n).length) with ready := S.ready ++ [q] }) (f1.trans hu) (by show LogIs (S.hand _).s.m.log _ _; rw [f2]; exact hU.log)
      (hready (T := S.hand (.fileCreation ts n q (S.src src n).length)) hset this)
  · by_cases hs2 : S.status n (S.src src n).length = EXISTS_TOO_LARGE
    · have hmore : ∀ (T : DirSys) (e : LogEntry), S.hand e = T → e.quiet → S.s.Allowed (.add e) →
          Run src v T (es0 ++ es1) ∧ T.s.m.up = true ∧ T.s.m.log = S.s.m.log ∧ T.s.settled = true ∧ T.s.usable = true ∧ T.opened = S.opened ∧ T.ready = S.ready := by
        rintro T e rfl hq ha'
        obtain ⟨f1, f2, _⟩ := S.hand_fields _ ha'
        exact ⟨h.hand_quiet ha' hq, f1.trans hu, f2, hset, hus, rfl, rfl⟩
      have hkn : ∃ x, S.known n = some x := by
        cases hk : S.known n with
        | none =>
          exfalso; apply hs1
          unfold DirSys.status; rw [hk]
        | some x => exact ⟨x, rfl⟩
      obtain ⟨x, hk⟩ := hkn
      have he : S.sizeEntries ts n q (S.src src n).length = [.fileInvalidation ts x.seqId, .fileCreation ts n q (S.src src n).length] := by
        unfold DirSys.sizeEntries; rw [if_neg hs1, if_pos hs2, hk]; rfl
      rw [he] at ha ⊢
      have ha1 := ha (.fileInvalidation ts x.seqId) (by simp)
      have ha2 := ha (.fileCreation ts n q (S.src src n).length) (by simp)
      obtain ⟨r1, r2, r3, r4, r5, r6, r7⟩ := hmore _ _ rfl ⟨rfl, rfl⟩ ha1
      have hU' : ∃ es0' es1' t' tr0' tr1', Up v true (S.hand (.fileInvalidation ts x.seqId)).s es0' es1' t' tr0' tr1' :=
        (add_inv hu hU _ ha1).1 r2
      obtain ⟨es0', es1', t', tr0', tr1', hU'⟩ := hU'
      have hl := logIs_unique (by rw [r3]; exact hU.log) hU'.log
      rw [hl.1] at r1
      have ha2' : (S.hand (.fileInvalidation ts x.seqId)).s.Allowed (.add (.fileCreation ts n q (S.src src n).length)) := allowed_after ha1 ha2
      have := r1.hand_creation hU' ha2' r4 r5 (by rw [r6]; exact ho)
      obtain ⟨f1, f2, _⟩ := (S.hand (.fileInvalidation ts x.seqId)).hand_fields _ ha2'
      rw [← hl.1] at this
      exact DirInv.up (S := { (S.hand (.fileInvalidation ts x.seqId)).hand (.fileCreation ts n q (S.src src n).length) with ready := S.ready ++ [q] })
        (f1.trans r2) (by show LogIs ((S.hand _).hand _).s.m.log _ _; rw [f2, r3]; exact hU.log)
        (hready (T := (S.hand (.fileInvalidation ts x.seqId)).hand (.fileCreation ts n q (S.src src n).length)) hset this)
    · by_cases hs3 : S.status n (S.src src n).length = EXISTS_TOO_SMALL
      · have he : S.sizeEntries ts n q (S.src src n).length = [.fileResize ts q (S.src src n).length] := by
          unfold DirSys.sizeEntries; rw [if_neg hs1, if_neg hs2, if_pos hs3]
        rw [he] at ha ⊢
        have ha' := ha _ (List.mem_singleton.2 rfl)
        have := h.hand_quiet ha' ⟨rfl, rfl⟩
        obtain ⟨f1, f2, _⟩ := S.hand_fields _ ha'
        exact DirInv.up (S := { S.hand (.fileResize ts q (S.src src n).length) with ready := S.ready ++ [q] }) (f1.trans hu) (by show LogIs (S.hand _).s.m.log _ _; rw [f2]; exact hU.log)
          (hready (T := S.hand (.fileResize ts q (S.src src n).length)) hset this)
      · have he : S.sizeEntries ts n q (S.src src n).length = [] := by
          unfold DirSys.sizeEntries; rw [if_neg hs1, if_neg hs2, if_neg hs3]
        rw [he]
        exact DirInv.up hu hU.log (hready hset h)

/-- More is stored. -/
theorem HoldsIn.safer {f b : Option Bytes} {sf sf' : Nat → Bool} {r : List Interval} (h : HoldsIn f b sf r)
    (hs : ∀ p, sf p = true → sf' p = true) : HoldsIn f b sf' r := by
  obtain ⟨c, s, h1, h2, h3, h4⟩ := h
  exact ⟨c, s, h1, h2, h3, fun p hp => ⟨(h4 p hp).1, hs p (h4 p hp).2⟩⟩

theorem dir_sync {src : Tag → Bytes → Option Bytes} {v : Bool} {S : DirSys} {es : List LogEntry} (h : Run src v S es) (n : Bytes) :
    Run src v (S.step src (.sync n)) es := by
  have hs : ∀ m p, S.safe m p = true → setSafe S.safe n (fun _ => true) m p = true := by
    intro m p hp
    by_cases hm : m = n
    · subst hm; rw [setSafe_same]
    · rw [setSafe_other _ _ hm]; exact hp
  constructor
  · intro l hl env i m sz r hv τ hτ hne
    exact (h.hon l hl env i m sz r hv τ hτ hne).safer (hs m)
  · exact h.one
  · intro k1 k2 x hx
    obtain ⟨τ, c1, c2, c3, c4, c5, c6⟩ := h.cl k1 k2 x hx
    exact ⟨τ, c1, c2, c3, c4, c5.safer (hs _), c6⟩
  · exact h.cu
  · exact h.kn0
  · exact h.kn
  · exact h.top
  · exact h.fresh
  · exact h.t1
  · exact h.t2
  · intro k1 k2 x hx hg
    exact ⟨(h.kp k1 k2 x hx hg).1.safer (hs _), (h.kp k1 k2 x hx hg).2⟩
  · intro y hy; exact (h.rd y hy).safer (hs _)
  · exact h.wr
  · exact h.go
  · exact h.dt

theorem dir_power {src : Tag → Bytes → Option Bytes} {files : Bytes → Option Bytes} {safe : Bytes → Nat → Bool} {E : List LogEntry}
    (h : Honest src files safe E) (f : Bytes → Option Bytes)
    (hf : ∀ n c', f n = some c' → ∃ c, files n = some c ∧ c'.length ≤ c.length ∧ ∀ p, p < c.length → safe n p = true → c'[p]? = c[p]?) :
    Honest src f (fun _ _ => true) E := by
  intro env i n sz r hlive τ hτ hne
  obtain ⟨c', hc'⟩ := Option.ne_none_iff_exists'.1 hne
  obtain ⟨c, h1, h2, h3⟩ := hf n c' hc'
  obtain ⟨c0, s, k1, k2, k3, k4⟩ := h env i n sz r hlive τ hτ (by rw [h1]; simp)
  rw [h1] at k1; cases k1
  refine ⟨c', s, hc', k2, by omega, fun p hp => ?_⟩
  obtain ⟨⟨q1, q2⟩, q3⟩ := k4 p hp
  have hx := h3 p q1 q3
  refine ⟨⟨?_, by rw [hx, q2]⟩, rfl⟩
  by_contra hcon
  rw [List.getElem?_eq_none (by omega), List.getElem?_eq_getElem q1] at hx
  cases hx

theorem step_fits {src : Tag → Bytes → Option Bytes} {S : DirSys} (op : DirOp) : (S.step src op).fits = S.fits := by
  cases op with
  | log op => cases op <;> rfl
  | _ => rfl

theorem dir_inv {src : Tag → Bytes → Option Bytes} {v : Bool} (hsrc : ∀ τ τ', Tag.same v τ τ' → src τ = src τ')
    {S : DirSys} (h : DirReach src v true S) (hfit : ∀ k x, S.fits k x = true) : DirInv src v S := by
  induction h with
  | init env files safe fits =>
    obtain ⟨es, t, h1, h2, h3⟩ := fair_nil src files safe
    exact DirInv.down rfl h1 h2 h3
  | @step S op hr hok ih =>
    rw [step_fits] at hfit
    have ih := ih hfit
    have hI := reach_inv hr.logReach
    have both : S.s.m.up = true → ∃ es0 es1 t tr0 tr1, Up v true S.s es0 es1 t tr0 tr1 ∧ Run src v S (es0 ++ es1) := by
      intro hu
      obtain ⟨es0, es1, t, tr0, tr1, h1⟩ := hI.1 hu
      obtain ⟨es, t', h2, h3⟩ := ih.1 hu
      obtain ⟨rfl, rfl⟩ := logIs_unique h2 h1.log
      exact ⟨_, _, _, _, _, h1, h3⟩
    cases op with
    | log op =>
      obtain ⟨ha, hg⟩ := hok
      cases op with
      | boot env opts tree ts w =>
        obtain ⟨es, t, h1, h2, h3⟩ := ih.2 ha.1
        obtain ⟨es', t', k1, k2, _⟩ := hI.2 ha.1
        obtain ⟨rfl, rfl⟩ := logIs_unique h1 k1
        exact dir_boot h1 h2 h3 k2 env opts tree ts w ha hg.1 hg.2.1
      | connect ip res ts w wc =>
        obtain ⟨es0, es1, t, tr0, tr1, h1, h2⟩ := both ha.1
        exact dir_connect ha.1 h1 h2 ip res ts w wc ha
      | settle bm ts1 ts2 w1 w2 wc =>
        obtain ⟨es0, es1, t, tr0, tr1, h1, h2⟩ := both ha.1
        exact dir_settle hsrc hfit ha.1 h1 h2 bm ts1 ts2 w1 w2 wc ha
      | add e =>
        obtain ⟨es0, es1, t, tr0, tr1, h1, h2⟩ := both ha.1
        cases e with
        | fileInvalidation ts i =>
          obtain ⟨f1, f2, _⟩ := S.hand_fields _ ha
          exact DirInv.up (S := S.hand _) (f1.trans ha.1) (by rw [f2]; exact h1.log) (h2.hand_quiet ha ⟨rfl, rfl⟩)
        | _ => exact absurd hg (by simp)
      | data => exact absurd hg (by simp)
      | flush w =>
        obtain ⟨es0, es1, t, tr0, tr1, h1, h2⟩ := both ha.1
        exact dir_flush ha.1 h1 h2 w
      | finish ok disk tr ap now wh w1 w2 w3 wc =>
        obtain ⟨es0, es1, t, tr0, tr1, h1, h2⟩ := both ha.1
        have hd : disk = S.sizes := hg
        subst hd
        exact dir_finish ha.1 h1 h2 ok tr ap now wh w1 w2 w3 wc ha
      | kill =>
        obtain ⟨es0, es1, t, tr0, tr1, h1, h2⟩ := both ha
        exact DirInv.down rfl h1.log (by have := h2.hon [] List.nil_prefix; rw [List.append_nil] at this; exact this) (by simpa using h2.one [] List.nil_prefix)
    | size n q =>
      obtain ⟨es0, es1, t, tr0, tr1, h1, h2⟩ := both hok.1.1
      exact DirInv.up hok.1.1 h1.log (dir_size hsrc h1 h2 n q hok)
    | fail n q f =>
      obtain ⟨es0, es1, t, tr0, tr1, h1, h2⟩ := both hok.1.1
      exact DirInv.up hok.1.1 h1.log (dir_fail h2 n q f hok)
    | entries ts n q =>
      by_cases hu : S.s.m.up = true
      · obtain ⟨es0, es1, t, tr0, tr1, h1, h2⟩ := both hu
        exact dir_entries hu h1 h2 ts n q hok
      · have hne : S.sizeEntries ts n q (S.src src n).length = [] := by
          rw [List.eq_nil_iff_forall_not_mem]
          intro e he
          exact hu (hok.2.2.2 e he).1
        obtain ⟨es, t, h1, h2, h3⟩ := ih.2 (by simpa using hu)
        simp only [DirSys.step, hne, List.foldl_nil]
        exact DirInv.down (by simpa using hu) h1 h2 h3
    | write n off len =>
      obtain ⟨es0, es1, t, tr0, tr1, h1, h2⟩ := both hok.1.1
      exact DirInv.up hok.1.1 h1.log (dir_write hsrc h1 h2 n off len hok)
    | block ts n q off len =>
      obtain ⟨ha, hg, _, ho, hw⟩ := hok
      obtain ⟨hset, hus⟩ := hg rfl
      obtain ⟨es0, es1, t, tr0, tr1, h1, h2⟩ := both ha.1
      obtain ⟨f1, f2, _⟩ := S.hand_fields _ ha
      exact DirInv.up (S := S.hand _) (f1.trans ha.1) (by rw [f2]; exact h1.log) (h2.hand_block h1 ha hset hus ho hw)
    | unlink n =>
      obtain ⟨es0, es1, t, tr0, tr1, h1, h2⟩ := both hok.1.1
      exact DirInv.up hok.1.1 h1.log (dir_unlink h2 n hok)
    | vanish n =>
      have hd : S.s.m.up = false := hok
      obtain ⟨es, t, h1, h2, h3⟩ := ih.2 hd
      refine DirInv.down hd h1 ?_ h3
      intro env i m sz r hlive τ hτ hne
      simp only [DirSys.step] at hne ⊢
      by_cases hm : m = n
      · subst hm; rw [setFile_same] at hne; exact absurd rfl hne
      · rw [setFile_other _ _ hm] at hne ⊢
        rw [setSafe_other _ _ hm]
        exact h2 env i m sz r hlive τ hτ hne
    | sync n =>
      obtain ⟨es0, es1, t, tr0, tr1, h1, h2⟩ := both hok.1
      exact DirInv.up hok.1 h1.log (dir_sync h2 n)
    | power f =>
      obtain ⟨es, t, h1, h2, h3⟩ := ih.2 hok.1
      exact DirInv.down hok.1 h1 (dir_power h2 f hok.2) h3

end Wdt
