import Verif.Lemmas.LogHistory
/-
The invariant of `LogHistory` is kept by every operation.
-/
namespace Wdt

theorem inDoubt_stays {env : LogEnv} {a b : List LogEntry} (h : inDoubt env a = true)
    (hb : ∀ e ∈ b, e.confirms env = false) : inDoubt env (a ++ b) = true := by
  induction b using List.reverseRecOn with
  | nil => simpa using h
  | append_singleton b e ih =>
    rw [← List.append_assoc, inDoubt_snoc, hb e (by simp)]
    split
    · rfl
    · simp only [Bool.false_eq_true, if_false]
      exact ih (fun x hx => hb x (by simp [hx]))

theorem inDoubt_of_hdr {env : LogEnv} {es : List LogEntry} {τ : Tag} (h : lastHdr es = some τ)
    (hne : ¬ (τ.rid = env.recoveryId ∧ τ.cfg = env.config)) : inDoubt env es = true := by
  induction es using List.reverseRecOn with
  | nil => simp [lastHdr] at h
  | append_singleton es e ih =>
    rw [inDoubt_snoc]
    rw [lastHdr_append] at h
    cases e with
    | header ts w r s c =>
      simp [lastHdr] at h
      subst h
      have : (LogEntry.header ts w r s c).resets env = true := by
        simp only [LogEntry.resets, decide_eq_true_eq]
        by_contra hc
        exact hne ⟨by by_contra h1; exact hc (Or.inl h1), by by_contra h1; exact hc (Or.inr h1)⟩
      rw [this]; rfl
    | dirInvalidation ts => rfl
    | _ =>
      have := ih (by simpa [lastHdr] using h)
      simp [LogEntry.resets, LogEntry.confirms, this]

/-- If the directory is not in doubt, an entry headed by another transfer is followed by a
header of this one. -/
theorem headed_by_this {env : LogEnv} {pre post : List LogEntry} {τ : Tag} (h : inDoubt env (pre ++ post) = false)
    (hl : lastHdr pre = some τ) (i : Int) :
    (τ.rid = env.recoveryId ∧ τ.cfg = env.config) ∨ ∃ e ∈ post, Breaks τ i e := by
  by_contra hc
  rw [not_or] at hc
  have := inDoubt_stays (inDoubt_of_hdr hl hc.1) (b := post) (by
    intro e he
    by_contra hcf
    cases e with
    | header ts w r s c =>
      simp only [LogEntry.confirms, decide_eq_false_iff_not, not_not] at hcf
      refine hc.2 ⟨_, he, ?_⟩
      simp only [Breaks]
      by_contra hx
      rw [not_or, not_ne_iff, not_ne_iff] at hx
      exact hc.1 ⟨hx.1 ▸ hcf.1, hx.2 ▸ hcf.2⟩
    | _ => simp [LogEntry.confirms] at hcf)
  rw [h] at this; cases this

/-- The invariant. -/
def Inv (v g : Bool) (s : LogSys) : Prop :=
  (s.m.up = true → ∃ es0 es1 t tr0 tr1, Up v g s es0 es1 t tr0 tr1) ∧ (s.m.up = false → Down v g s)

theorem Inv.up {v g : Bool} {s : LogSys} (hu : s.m.up = true) {es0 es1 : List LogEntry} {t : Bytes} {tr0 tr1 : List TItem}
    (h : Up v g s es0 es1 t tr0 tr1) : Inv v g s := ⟨fun _ => ⟨_, _, _, _, _, h⟩, fun hc => by rw [hu] at hc; cases hc⟩

theorem Inv.down {v g : Bool} {s : LogSys} (hu : s.m.up = false) (h : Down v g s) : Inv v g s :=
  ⟨fun hc => (by rw [hu] at hc; cases hc), fun _ => h⟩

theorem HdrOk.append {a b : List LogEntry} (h : HdrOk a) (hb : ∀ e ∈ b, e.plain = true ∨ ∃ ts, e = .dirInvalidation ts) :
    HdrOk (a ++ b) := by
  intro ts w r s c hm
  rcases List.mem_append.1 hm with hm | hm
  · exact h _ _ _ _ _ hm
  · rcases hb _ hm with hx | ⟨_, hx⟩
    · simp [LogEntry.plain] at hx
    · cases hx

theorem boot_inv {v g : Bool} {s : LogSys} (hd : Down v g s) (env : LogEnv) (opts : LogOpts) (tree : List FileChunksInfo)
    (ts : Int) (w : Nat) (ha : s.Allowed (.boot env opts tree ts w)) (hv : v = true → opts.verifyOff = false) :
    Inv v g (s.step (.boot env opts tree ts w)) := by
  obtain ⟨es, t, hl, hq, hh⟩ := hd
  obtain ⟨_, hpo, hnow, hts, hcfg⟩ := ha
  have hnow' : I63 env.now := hnow
  have hts' : (LogEntry.dirInvalidation ts).InRange := hts
  have hcfg' : I63 env.config := by
    rw [hcfg]
    unfold transferConfig
    cases env.prealloc <;> cases env.dirTree <;> decide
  simp only [LogSys.step]
  by_cases hpre : (env.dirTree && env.prealloc) = true
  · have hb : s.m.boot env opts tree ts w = { log := s.m.log, env := env, opts := opts, aborted := true } := by
      unfold LogMgr.boot; rw [if_pos hpre]
    rw [hb]
    exact Inv.down rfl ⟨es, t, hl, hq, hh⟩
  cases hp : parseLog env [] s.m.log with
  | error f =>
    have hb : s.m.boot env opts tree ts w = { log := s.m.log, env := env, opts := opts, aborted := true } := by
      unfold LogMgr.boot; rw [if_neg hpre, hp]
    rw [hb]
    exact Inv.down rfl ⟨es, t, hl, hq, hh⟩
  | ok out =>
    by_cases hi : out.status = eINVALID_LOG
    · have hb : s.m.boot env opts tree ts w = { log := out.log, up := true, fd := false, env := env, opts := opts, status := out.status, senderIp := out.senderIp, claims := out.infos } := by
        unfold LogMgr.boot; rw [if_neg hpre, hp]; simp only [if_pos hi]
      rw [hb]
      obtain ⟨t', hl'⟩ := parse_invalid hpo hl hp hi
      refine Inv.up rfl (es0 := es) (es1 := []) (t := t') (tr0 := s.tr) (tr1 := []) ?_
      constructor
      all_goals first
        | exact hq
        | exact hv
        | exact ⟨hcfg', hpo⟩
        | (simp [hi]; done)
        | (simpa using hl')
        | (simpa using hh)
        | skip
    · obtain ⟨⟨lost, hl'⟩, hst, hip, hsay, hno⟩ := parse_known hpo hnow' hl hp hi
      have hlost : ∀ e ∈ lost.map (LogEntry.fileInvalidation env.now), ∃ ts i, e = LogEntry.fileInvalidation ts i := by
        intro e he
        obtain ⟨i, _, rfl⟩ := List.mem_map.1 he
        exact ⟨_, _, rfl⟩
      have hq' := hq.append_plain hlost
      have hh' : HdrOk (es ++ lost.map (LogEntry.fileInvalidation env.now)) := hh.append (by
        intro e he
        obtain ⟨_, _, rfl⟩ := hlost e he
        exact Or.inl rfl)
      have hlast : lastHdr (es ++ lost.map (LogEntry.fileInvalidation env.now)) = lastHdr es := by
        rw [lastHdr_append, lastHdr_none]
        · rfl
        · intro ts w r s c hm
          obtain ⟨_, _, hx⟩ := hlost _ hm; cases hx
      by_cases hc : out.status = eINCONSISTENT_DIRECTORY
      · have hb : s.m.boot env opts tree ts w = LogMgr.invalidateDirectory ts w 0 { log := out.log, up := true, fd := true, env := env, opts := opts, status := out.status, senderIp := out.senderIp, claims := out.infos } := by
          unfold LogMgr.boot; rw [if_neg hpre, hp]; simp only [if_neg hi, if_pos hc]
        rw [hb]
        obtain ⟨w1, w2⟩ := write_entry hl' hts' w
        by_cases hf : fullWrite (.dirInvalidation ts) w = true
        · have hm : LogMgr.invalidateDirectory ts w 0 { log := out.log, up := true, fd := true, env := env, opts := opts, status := out.status, senderIp := out.senderIp, claims := out.infos } = { log := out.log ++ (recBytes (.dirInvalidation ts)).take w, up := true, fd := true, env := env, opts := opts, status := eINCONSISTENT_DIRECTORY, senderIp := out.senderIp, claims := out.infos } := by
            unfold LogMgr.invalidateDirectory; simp [hf]
          rw [hm]
          refine Inv.up rfl (es0 := es ++ lost.map (LogEntry.fileInvalidation env.now)) (es1 := [.dirInvalidation ts]) (t := []) (tr0 := s.tr) (tr1 := []) ?_
          have hinf := hno (by rw [hc]; decide)
          constructor
          all_goals first
            | exact hq'
            | exact hv
            | exact ⟨hcfg', hpo⟩
            | exact w1 hf
            | (simp [eINCONSISTENT_DIRECTORY, eINVALID_LOG]; done)
            | skip
          · exact hh'.append (by simp)
          · simp [LogEntry.isAdd]
          · intro pre ts' n i sz post he
            have : LogEntry.fileCreation ts' n i sz ∈ [LogEntry.dirInvalidation ts] := by rw [he]; simp
            simp at this
          · intro _
            exact ⟨rfl, rfl, rfl, fun _ => by rw [hlast]; exact hip⟩
          · intro _ pre ts' n i sz post τ0 he hlh
            exact Or.inl ⟨.dirInvalidation ts, by simp, trivial⟩
          · intro _
            exact Or.inl hinf
        · have hm : LogMgr.invalidateDirectory ts w 0 { log := out.log, up := true, fd := true, env := env, opts := opts, status := out.status, senderIp := out.senderIp, claims := out.infos } = { log := out.log ++ (recBytes (.dirInvalidation ts)).take w, up := false, aborted := true, fd := false, env := env, opts := opts, status := eINCONSISTENT_DIRECTORY, senderIp := out.senderIp, claims := out.infos } := by
            unfold LogMgr.invalidateDirectory LogMgr.closeLog LogMgr.flush LogMgr.abort
            simp [hf]
          rw [hm]
          obtain ⟨t', hw⟩ := w2 (by simpa using hf)
          exact Inv.down rfl ⟨_, t', hw, hq', hh'⟩
      · have hok : out.status = eOK := by
          rw [hst]; rw [hst] at hc
          split
          · rename_i hx; rw [if_pos hx] at hc; exact absurd rfl hc
          · rfl
        have hdb : inDoubt env es = false := by
          by_contra hx
          rw [if_pos (by simpa using hx)] at hst
          exact hc hst
        have hmine : ∀ pre ts n i sz post τ0, es ++ lost.map (LogEntry.fileInvalidation env.now) = pre ++ LogEntry.fileCreation ts n i sz :: post →
            lastHdr pre = some τ0 → (∃ e ∈ post, Breaks τ0 i e) ∨ (τ0.rid = env.recoveryId ∧ τ0.cfg = env.config) := by
          intro pre ts n i sz post τ0 he hlh
          rcases split_append he with ⟨p, h1, h2⟩ | ⟨p, h1, h2⟩
          · have hpr : es = (pre ++ [LogEntry.fileCreation ts n i sz]) ++ p := by rw [h1]; simp
            rw [hpr] at hdb
            rcases headed_by_this hdb (τ := τ0) (by rw [lastHdr_append]; simpa [lastHdr] using hlh) i with hx | ⟨e, hx1, hx2⟩
            · exact Or.inr hx
            · exact Or.inl ⟨e, by rw [h2]; simp [hx1], hx2⟩
          · have : LogEntry.fileCreation ts n i sz ∈ lost.map (LogEntry.fileInvalidation env.now) := by rw [h2]; simp
            obtain ⟨_, _, hx⟩ := hlost _ this; cases hx
        have main : ∀ cl : List FileChunksInfo, (env.dirTree = false → Says env es cl) →
            Inv v g { m := { log := out.log, up := true, fd := true, env := env, opts := opts, status := out.status, senderIp := out.senderIp, claims := cl }, n := s.n + 1, usable := true, tr := s.tr } := by
          intro cl hcl
          refine Inv.up rfl (es0 := es ++ lost.map (LogEntry.fileInvalidation env.now)) (es1 := []) (t := []) (tr0 := s.tr) (tr1 := []) ?_
          constructor
          all_goals first
            | exact hq'
            | exact hv
            | exact ⟨hcfg', hpo⟩
            | (simp; done)
            | (simpa using hl')
            | (simpa using hh')
            | skip
          · intro _
            exact ⟨rfl, rfl, rfl, fun _ => by rw [hlast]; exact hip⟩
          · intro _ pre ts' n i sz post τ0 he hlh
            rcases hmine pre ts' n i sz post τ0 he hlh with hx | hx
            · left; simpa using hx
            · exact Or.inr ⟨hx.1, hx.2, fun hc => by simp at hc⟩
          · intro hdt
            exact Or.inr (Or.inr ⟨es, _, rfl, hlost, hq, hcl hdt, rfl, fun _ => ⟨rfl, fun hx => by simp at hx⟩⟩)
        have hus : decide (out.status ≠ eINVALID_LOG) = true := by simp [hi]
        by_cases hdt : env.dirTree = true
        · by_cases hin : out.infos = []
          · have hb : s.m.boot env opts tree ts w = { log := out.log, up := true, fd := true, env := env, opts := opts, status := out.status, senderIp := out.senderIp, claims := tree } := by
              unfold LogMgr.boot; rw [if_neg hpre, hp]; simp only [if_neg hi, if_neg hc, if_pos (And.intro hok hdt), if_pos hin]
            rw [hb, hus]
            exact main _ (fun hx => by rw [hdt] at hx; cases hx)
          · have hb : s.m.boot env opts tree ts w = LogMgr.abort { log := out.log, up := true, fd := true, env := env, opts := opts, status := out.status, senderIp := out.senderIp, claims := out.infos } := by
              unfold LogMgr.boot; rw [if_neg hpre, hp]; simp only [if_neg hi, if_neg hc, if_pos (And.intro hok hdt), if_neg hin]
            rw [hb]
            exact Inv.down rfl ⟨_, [], hl', hq', hh'⟩
        · have hb : s.m.boot env opts tree ts w = { log := out.log, up := true, fd := true, env := env, opts := opts, status := out.status, senderIp := out.senderIp, claims := out.infos } := by
            unfold LogMgr.boot; rw [if_neg hpre, hp]; simp only [if_neg hi, if_neg hc, hdt, and_false, if_false, Bool.false_eq_true]
          rw [hb, hus]
          exact main _ (fun _ => hsay hok)

theorem kill_inv {v g : Bool} {s : LogSys} {es0 es1 : List LogEntry} {t : Bytes} {tr0 tr1 : List TItem}
    (h : Up v g s es0 es1 t tr0 tr1) : Inv v g (s.step .kill) :=
  Inv.down rfl ⟨_, _, h.log, h.q_all, h.hdrOk⟩

theorem data_inv {v g : Bool} {s : LogSys} (hu : s.m.up = true) {es0 es1 : List LogEntry} {t : Bytes} {tr0 tr1 : List TItem}
    (h : Up v g s es0 es1 t tr0 tr1) (hc : s.connected = true) (hg : g = true → s.settled = true ∧ s.usable = true) :
    Inv v g (s.step .data) := by
  have : Up v g (s.step .data) es0 es1 t tr0 (tr1 ++ [.data s.tag s.n s.resuming]) :=
    { h with
      tr := by simp [LogSys.step, h.tr]
      items := by
        intro it hm
        rcases List.mem_append.1 hm with hm | hm
        · exact h.items it hm
        · rw [List.mem_singleton] at hm; exact Or.inr hm
      sub := by rw [addsOf_append]; exact h.sub.trans (List.sublist_append_left ..)
      idle := fun hx => by
        have hx' : s.connected = false := hx
        rw [hc] at hx'; cases hx'
      data := by
        intro hg' τ n r hm
        exact hg hg' }
  exact Inv.up hu this

theorem add_inv {v g : Bool} {s : LogSys} (hu : s.m.up = true) {es0 es1 : List LogEntry} {t : Bytes} {tr0 tr1 : List TItem}
    (h : Up v g s es0 es1 t tr0 tr1) (e : LogEntry) (ha : s.Allowed (.add e)) : Inv v g (s.step (.add e)) := by
  obtain ⟨_, hc, ha⟩ := ha
  have hr : e.InRange ∧ e.plain = true ∧ (e.isAdd = false → (∃ ts i sz, e = .fileResize ts i sz) ∨ s.settled = true) := by
    cases e with
    | header => exact absurd ha (by simp)
    | dirInvalidation => exact absurd ha (by simp)
    | fileCreation ts n i sz => exact ⟨ha, rfl, by simp [LogEntry.isAdd]⟩
    | blockWrite ts i o sz => exact ⟨ha, rfl, by simp [LogEntry.isAdd]⟩
    | fileInvalidation ts i => exact ⟨⟨ha.1, ha.2.1⟩, rfl, fun _ => Or.inr ha.2.2⟩
    | fileResize ts i sz => exact ⟨ha, rfl, fun _ => Or.inl ⟨_, _, _, rfl⟩⟩
  have htr : (s.step (.add e)).tr = tr0 ++ (tr1 ++ [.added e s.tag s.n]) := by simp [LogSys.step, h.tr]
  have hitems : ∀ it ∈ tr1 ++ [TItem.added e s.tag s.n], (∃ e, it = .added e s.tag s.n) ∨ it = .data s.tag s.n s.resuming := by
    intro it hm
    rcases List.mem_append.1 hm with hm | hm
    · exact h.items it hm
    · rw [List.mem_singleton] at hm; exact Or.inl ⟨_, hm⟩
  have hidle : s.connected ≠ false := by rw [hc]; decide
  have hdata : g = true → ∀ τ n r, TItem.data τ n r ∈ tr1 ++ [TItem.added e s.tag s.n] → s.settled = true ∧ s.usable = true := by
    intro hg τ n r hm
    rcases List.mem_append.1 hm with hm | hm
    · exact h.data hg _ _ _ hm
    · simp at hm
  have keep : s.m.add e = s.m → Inv v g (s.step (.add e)) := by
    intro hm
    have hs : s.step (.add e) = { s with tr := s.tr ++ [.added e s.tag s.n] } := by simp only [LogSys.step, hm]
    rw [hs] at htr ⊢
    have : Up v g { s with tr := s.tr ++ [.added e s.tag s.n] } es0 es1 t tr0 (tr1 ++ [.added e s.tag s.n]) :=
      { h with
        tr := htr
        items := hitems
        sub := by rw [addsOf_append]; exact h.sub.trans (List.sublist_append_left ..)
        idle := fun hx => absurd hx hidle
        data := hdata }
    exact Inv.up hu this
  have push : s.m.fd = true → (e.isAdd = true → s.m.headerWritten = true) → s.settled = true → s.m.add e = { s.m with pending := s.m.pending ++ [e] } →
      Inv v g (s.step (.add e)) := by
    intro hfd hh hset hm
    have hs : s.step (.add e) = { s with m := { s.m with pending := s.m.pending ++ [e] }, tr := s.tr ++ [.added e s.tag s.n] } := by
      simp only [LogSys.step, hm]
    rw [hs] at htr ⊢
    have : Up v g { s with m := { s.m with pending := s.m.pending ++ [e] }, tr := s.tr ++ [.added e s.tag s.n] } es0 es1 t tr0 (tr1 ++ [.added e s.tag s.n]) :=
      { h with
        tr := htr
        items := hitems
        sub := by
          rw [addsOf_append]
          simp only
          rw [← List.append_assoc, List.filter_append]
          refine h.sub.append ?_
          show List.Sublist _ [e]
          exact List.filter_sublist
        pend := by
          intro x hx
          rcases List.mem_append.1 hx with hx | hx
          · exact h.pend x hx
          · rw [List.mem_singleton] at hx; subst hx; exact ⟨hr.1, hr.2.1⟩
        pendHw := by
          intro x hx hadd
          rcases List.mem_append.1 hx with hx | hx
          · exact h.pendHw x hx hadd
          · rw [List.mem_singleton] at hx; subst hx; exact hh hadd
        fresh := fun hx => by
          have hx' : s.settled = false := hx
          rw [hset] at hx'; cases hx'
        idle := fun hx => absurd hx hidle
        unusable := fun hx => by
          have := (h.unusable hx).1
          rw [hfd] at this; cases this
        data := hdata }
    exact Inv.up hu this
  have hrec : ∃ b, e.record = .ok b := ⟨_, record_ok e hr.1⟩
  obtain ⟨b, hrec⟩ := hrec
  have hset : s.m.headerWritten = true → s.settled = true := by
    intro hx
    by_contra hs
    have := (h.fresh (by simpa using hs)).2.1
    rw [this] at hx; cases hx
  cases e with
  | header => exact absurd ha (by simp)
  | dirInvalidation => exact absurd ha (by simp)
  | fileInvalidation ts i =>
    by_cases hfd : s.m.fd = true
    · exact push hfd (by simp [LogEntry.isAdd]) ha.2.2 (by simp only [LogMgr.add, hfd, if_true, hrec])
    · exact keep (by simp only [LogMgr.add, hfd, Bool.false_eq_true, if_false])
  | fileCreation ts n i sz =>
    by_cases hfd : (s.m.fd && s.m.headerWritten) = true
    · have hw : s.m.headerWritten = true := by simp at hfd; exact hfd.2
      exact push (by simp at hfd; exact hfd.1) (fun _ => hw) (hset hw) (by simp only [LogMgr.add, hfd, if_true, hrec])
    · exact keep (by simp only [LogMgr.add, hfd, Bool.false_eq_true, if_false])
  | blockWrite ts i o sz =>
    by_cases hfd : (s.m.fd && s.m.headerWritten) = true
    · have hw : s.m.headerWritten = true := by simp at hfd; exact hfd.2
      exact push (by simp at hfd; exact hfd.1) (fun _ => hw) (hset hw) (by simp only [LogMgr.add, hfd, if_true, hrec])
    · exact keep (by simp only [LogMgr.add, hfd, Bool.false_eq_true, if_false])
  | fileResize ts i sz =>
    by_cases hfd : (s.m.fd && s.m.headerWritten) = true
    · have hw : s.m.headerWritten = true := by simp at hfd; exact hfd.2
      exact push (by simp at hfd; exact hfd.1) (fun _ => hw) (hset hw) (by simp only [LogMgr.add, hfd, if_true, hrec])
    · exact keep (by simp only [LogMgr.add, hfd, Bool.false_eq_true, if_false])

/-- A round of the writer thread. -/
theorem flush_up {v g : Bool} {s : LogSys} {es0 es1 : List LogEntry} {t : Bytes} {tr0 tr1 : List TItem}
    (h : Up v g s es0 es1 t tr0 tr1) (w : Nat) :
    ∃ es1' t', Up v g { s with m := s.m.flush w } es0 es1' t' tr0 tr1 ∧ (s.m.writer = true → (s.m.flush w).pending = []) := by
  by_cases hwr : s.m.writer = true
  · obtain ⟨hfd, hdt⟩ := h.wfd hwr
    have ht := h.torn hfd (Or.inl hwr)
    subst ht
    obtain ⟨m, t', h1, h2, h3⟩ := write_entries h.log (fun e he => (h.pend e he).1) w
    have hm : s.m.flush w = { s.m with log := s.m.log ++ (pendingBytes s.m.pending).take w, pending := [], writer := decide ((pendingBytes s.m.pending).length ≤ w) } := by
      unfold LogMgr.flush; rw [if_pos hwr]
    rw [hm]
    have hsubs : ∀ e ∈ s.m.pending.take m, e ∈ s.m.pending := fun e he => List.mem_of_mem_take he
    have hnh : lastHdr (s.m.pending.take m) = none := plain_no_hdr (fun e he => (h.pend e (hsubs e he)).2)
    refine ⟨es1 ++ s.m.pending.take m, t', ?_, fun _ => rfl⟩
    constructor
    · exact h.tr
    · rw [← List.append_assoc]; exact h1
    · exact h.q
    · rw [← List.append_assoc]
      exact h.hdrOk.append (fun e he => Or.inl (h.pend e (hsubs e he)).2)
    · exact h.items
    · simp only [List.append_nil]
      exact (List.Sublist.filter _ (List.Sublist.append_left (List.take_sublist ..) _)).trans h.sub
    · intro ts w r i c hm
      rcases List.mem_append.1 hm with hm | hm
      · exact h.hdr1 _ _ _ _ _ hm
      · have := (h.pend _ (hsubs _ hm)).2; simp [LogEntry.plain] at this
    · intro pre ts n i sz post he
      rcases split_append he with ⟨p, k1, k2⟩ | ⟨p, k1, k2⟩
      · exact h.cre1 _ _ _ _ _ _ k1
      · have hin : LogEntry.fileCreation ts n i sz ∈ s.m.pending := hsubs _ (by rw [k2]; simp)
        have hl := h.hw (h.pendHw _ hin rfl)
        rw [k1, lastHdr_append, hl, plain_no_hdr]
        · rfl
        · intro e he
          exact (h.pend e (hsubs e (by rw [k2]; simp [he]))).2
    · simp
    · intro hx
      rw [lastHdr_append, hnh]
      exact h.hw hx
    · simp
    · intro _ hx
      rcases hx with hx | hx | hx
      · exact (h2 (by simpa using hx)).1
      · have := (h.fresh hx).1
        rw [this] at h2
        exact (h2 (by simp [pendingBytes])).1
      · have hx' : s.m.env.dirTree = true := hx
        rw [hdt] at hx'; cases hx'
    · intro hx
      obtain ⟨f1, f2, f3⟩ := h.fresh hx
      refine ⟨rfl, f2, ?_⟩
      rw [f1]; simpa using f3
    · intro hx
      have := (h.idle hx).2.2.1
      rw [hwr] at this; cases this
    · exact h.conn
    · intro hx
      have := (h.unusable hx).1
      rw [hfd] at this; cases this
    · exact h.opened
    · intro _; exact ⟨hfd, hdt⟩
    · intro hx pre ts n i sz post τ0 he hl
      rcases h.mine hx pre ts n i sz post τ0 he hl with ⟨e, hm, hb⟩ | hy
      · exact Or.inl ⟨e, by rw [← List.append_assoc]; exact List.mem_append_left _ hm, hb⟩
      · exact Or.inr hy
    · intro k1 k2 k3
      obtain ⟨ts, hm⟩ := h.kind k1 k2 k3
      exact ⟨ts, List.mem_append_left _ hm⟩
    · exact h.data
    · intro hx
      rcases h.claims hx with c1 | c2 | ⟨es, lost, c1, c2, c3, c4, c5, c6⟩
      · exact Or.inl c1
      · exact Or.inr (Or.inl c2)
      · refine Or.inr (Or.inr ⟨es, lost, c1, c2, c3, c4, c5, ?_⟩)
        intro hs
        refine ⟨?_, (c6 hs).2⟩
        rw [(h.fresh hs).1, (c6 hs).1]; simp
    · exact h.ver
    · exact h.cfg
  · have hm : s.m.flush w = s.m := by unfold LogMgr.flush; rw [if_neg hwr]
    rw [hm]
    exact ⟨es1, t, h, fun hx => absurd hx hwr⟩

theorem flush_inv {v g : Bool} {s : LogSys} (hu : s.m.up = true) {es0 es1 : List LogEntry} {t : Bytes} {tr0 tr1 : List TItem}
    (h : Up v g s es0 es1 t tr0 tr1) (w : Nat) : Inv v g (s.step (.flush w)) := by
  obtain ⟨es1', t', h', _⟩ := flush_up h w
  refine Inv.up ?_ h'
  simp only [LogSys.step, LogMgr.flush]
  split <;> exact hu

/-- What an invalidation of the directory does while nothing is pending. -/
theorem invalidate_eq {m : LogMgr} (hfd : m.fd = true) (hp : m.pending = []) (ts : Int) (w wc : Nat) :
    (fullWrite (.dirInvalidation ts) w = true → m.invalidateDirectory ts w wc =
      { m with status := eINCONSISTENT_DIRECTORY, log := m.log ++ (recBytes (.dirInvalidation ts)).take w }) ∧
    (fullWrite (.dirInvalidation ts) w = false →
      (m.invalidateDirectory ts w wc).log = m.log ++ (recBytes (.dirInvalidation ts)).take w ∧
      (m.invalidateDirectory ts w wc).up = false) := by
  constructor
  · intro hf
    unfold LogMgr.invalidateDirectory
    rw [if_pos hfd]
    simp only [hf, if_true]
  · intro hf
    unfold LogMgr.invalidateDirectory LogMgr.closeLog LogMgr.flush LogMgr.abort
    rw [if_pos hfd]
    simp only [hf, Bool.false_eq_true, if_false, hfd, if_true]
    refine ⟨?_, trivial⟩
    split
    · rfl
    · split <;> simp [hp, pendingBytes]

/-- What writing the header does while nothing is pending. -/
theorem header_eq {m : LogMgr} (hfd : m.fd = true) (hp : m.pending = []) (ts : Int) (w wc : Nat) :
    (fullWrite (.header ts WLOG_VERSION m.env.recoveryId m.senderIp m.env.config) w = true → m.writeLogHeader ts w wc =
      { m with status := eOK, headerWritten := true, log := m.log ++ (recBytes (.header ts WLOG_VERSION m.env.recoveryId m.senderIp m.env.config)).take w }) ∧
    (fullWrite (.header ts WLOG_VERSION m.env.recoveryId m.senderIp m.env.config) w = false → m.writeLogHeader ts w wc =
      { m with fd := false, writer := m.writer && m.env.dirTree, log := m.log ++ (recBytes (.header ts WLOG_VERSION m.env.recoveryId m.senderIp m.env.config)).take w }) := by
  constructor
  · intro hf
    unfold LogMgr.writeLogHeader
    rw [if_pos hfd]
    simp only [hf, if_true]
  · intro hf
    unfold LogMgr.writeLogHeader LogMgr.closeLog LogMgr.flush
    rw [if_pos hfd]
    simp only [hf, Bool.false_eq_true, if_false, hfd, if_true]
    by_cases hd : m.env.dirTree = true
    · simp [hd]
    · simp only [hd, Bool.false_eq_true, if_false]
      by_cases hw : m.writer = true
      · simp [hw, hp, pendingBytes, hd]
      · simp [hw]

theorem connect_inv {v g : Bool} {s : LogSys} (hu : s.m.up = true) {es0 es1 : List LogEntry} {t : Bytes} {tr0 tr1 : List TItem}
    (h : Up v g s es0 es1 t tr0 tr1) (ip : Bytes) (res : Bool) (ts : Int) (w wc : Nat)
    (ha : s.Allowed (.connect ip res ts w wc)) : Inv v g (s.step (.connect ip res ts w wc)) := by
  obtain ⟨_, hc, hip, hlen, hts⟩ := ha
  obtain ⟨i1, i2, i3, i4⟩ := h.idle hc
  obtain ⟨f1, f2, f3⟩ := h.fresh i2
  subst i1
  have hts' : (LogEntry.dirInvalidation ts).InRange := hts
  have hno1 : ∀ pre ts n i sz post, es1 ≠ pre ++ LogEntry.fileCreation ts n i sz :: post := by
    intro pre ts n i sz post he
    obtain ⟨_, hx⟩ := f3 (.fileCreation ts n i sz) (by rw [he]; simp)
    cases hx
  have hno2 : ∀ ts w r i c, LogEntry.header ts w r i c ∉ es1 := by
    intro ts w r i c he
    obtain ⟨_, hx⟩ := f3 _ he
    cases hx
  -- the state after the thread was started
  obtain ⟨wr, hwr, hm0⟩ : ∃ wr, (wr = true → s.m.fd = true ∧ s.m.env.dirTree = false) ∧
      (if !s.m.env.dirTree && s.m.status = eOK then { s.m with writer := true } else s.m) = { s.m with writer := wr } := by
    by_cases hx : (!s.m.env.dirTree && s.m.status = eOK) = true
    · refine ⟨true, ?_, by rw [if_pos hx]⟩
      intro _
      simp only [Bool.and_eq_true, Bool.not_eq_true', decide_eq_true_eq] at hx
      refine ⟨?_, hx.1⟩
      by_contra hfd
      have hus : s.usable = false := by
        by_contra hus
        exact hfd (h.opened (by simpa using hus) i2)
      have := (h.unusable hus).2.2.1
      rw [hx.2] at this
      exact absurd this (by decide)
    · refine ⟨false, by simp, ?_⟩
      rw [if_neg hx, ← i3]
  by_cases hfd : s.m.fd = true
  · have ht := h.torn hfd (Or.inr (Or.inl i2))
    subst ht
    have husable : s.usable = true := by
      by_contra hus
      have := (h.unusable (by simpa using hus)).1
      rw [hfd] at this; cases this
    by_cases hbad : (!s.m.opts.verifyOff && s.m.senderIp ≠ [] && s.m.senderIp ≠ ip) = true
    · obtain ⟨e1, e2⟩ := invalidate_eq (m := { s.m with writer := wr }) hfd f1 ts w wc
      obtain ⟨w1, w2⟩ := write_entry h.log hts' w
      have hcm : s.m.connect ip ts w wc = (if (LogMgr.invalidateDirectory ts w wc { s.m with writer := wr }).up then { LogMgr.invalidateDirectory ts w wc { s.m with writer := wr } with senderIp := ip, claims := [] } else LogMgr.invalidateDirectory ts w wc { s.m with writer := wr }) := by
        unfold LogMgr.connect
        rw [hm0]
        simp only [hfd, if_true]
        rw [if_pos (by exact hbad)]
      by_cases hf : fullWrite (.dirInvalidation ts) w = true
      · rw [e1 hf] at hcm
        simp only [hu, if_true] at hcm
        simp only [LogSys.step, hcm]
        refine Inv.up rfl (es0 := es0) (es1 := es1 ++ [.dirInvalidation ts]) (t := []) (tr0 := tr0) (tr1 := []) ?_
        constructor
        · exact h.tr
        · rw [← List.append_assoc]; exact w1 hf
        · exact h.q
        · rw [← List.append_assoc]; exact h.hdrOk.append (by simp)
        · simp
        · have : (es1 ++ [LogEntry.dirInvalidation ts]).filter LogEntry.isAdd = [] := by
            rw [List.filter_eq_nil_iff]
            intro e he
            rcases List.mem_append.1 he with he | he
            · obtain ⟨_, rfl⟩ := f3 e he; simp [LogEntry.isAdd]
            · rw [List.mem_singleton] at he; subst he; simp [LogEntry.isAdd]
          simp [f1, this]
        · intro ts' w' r i c hm
          rcases List.mem_append.1 hm with hm | hm
          · exact absurd hm (hno2 _ _ _ _ _)
          · simp at hm
        · intro pre ts' n i sz post he
          rcases split_append he with ⟨p, k1, _⟩ | ⟨p, _, k2⟩
          · exact absurd k1 (hno1 _ _ _ _ _ _)
          · have : LogEntry.fileCreation ts' n i sz ∈ [LogEntry.dirInvalidation ts] := by rw [k2]; simp
            simp at this
        · exact h.pend
        · intro hx
          have hx' : s.m.headerWritten = true := hx
          rw [f2] at hx'; cases hx'
        · exact h.pendHw
        · intro _ _; rfl
        · intro _
          refine ⟨f1, f2, ?_⟩
          intro e he
          rcases List.mem_append.1 he with he | he
          · exact f3 e he
          · rw [List.mem_singleton] at he; exact ⟨_, he⟩
        · intro hx; simp at hx
        · intro _ _; exact ⟨rfl, hip, hlen⟩
        · intro hx
          have hx' : s.usable = false := hx
          rw [husable] at hx'; cases hx'
        · intro _ _; exact hfd
        · intro hx; exact ⟨hfd, (hwr hx).2⟩
        · intro _ pre ts' n i sz post τ0 _ _
          exact Or.inl ⟨.dirInvalidation ts, by simp, trivial⟩
        · intro hx
          have hx' : s.settled = true := hx
          rw [i2] at hx'; cases hx'
        · simp
        · intro _; exact Or.inl rfl
        · exact h.ver
        · exact h.cfg
      · obtain ⟨d1, d2⟩ := e2 (by simpa using hf)
        rw [d2] at hcm
        simp only [Bool.false_eq_true, if_false] at hcm
        obtain ⟨t', hw⟩ := w2 (by simpa using hf)
        refine Inv.down (by simp only [LogSys.step, hcm, d2]) ⟨es0 ++ es1, t', ?_, h.q_all, h.hdrOk⟩
        simp only [LogSys.step, hcm, d1]
        exact hw
    · have hcm : s.m.connect ip ts w wc = { s.m with writer := wr, senderIp := ip } := by
        unfold LogMgr.connect
        rw [hm0]
        simp only [hfd, if_true]
        rw [if_neg (by exact hbad)]
      simp only [LogSys.step, hcm]
      refine Inv.up hu (es0 := es0) (es1 := es1) (t := []) (tr0 := tr0) (tr1 := []) ?_
      constructor
      · exact h.tr
      · exact h.log
      · exact h.q
      · exact h.hdrOk
      · simp
      · exact h.sub
      · intro ts' w' r i c hm
        exact absurd hm (hno2 _ _ _ _ _)
      · intro pre ts' n i sz post he
        exact absurd he (hno1 _ _ _ _ _ _)
      · exact h.pend
      · intro hx
        have hx' : s.m.headerWritten = true := hx
        rw [f2] at hx'; cases hx'
      · exact h.pendHw
      · intro _ _; rfl
      · intro _; exact ⟨f1, f2, f3⟩
      · intro hx; simp at hx
      · intro _ _; exact ⟨rfl, hip, hlen⟩
      · intro hx
        have hx' : s.usable = false := hx
        rw [husable] at hx'; cases hx'
      · intro _ _; exact hfd
      · intro hx; exact ⟨hfd, (hwr hx).2⟩
      · intro hx pre ts' n i sz post τ0 he hl
        rcases h.mine hx pre ts' n i sz post τ0 he hl with hb | ⟨c1, c2, _⟩
        · exact Or.inl hb
        · obtain ⟨τ1, q1, q2⟩ := h.q pre ts' n i sz post he
          rw [hl] at q1
          simp only [Option.some.injEq] at q1
          subst q1
          rcases q2 with ⟨e, q2, q3⟩ | ⟨a, τs, ns, ts2, sz2, b, b1, b2, b3, b4, b5⟩
          · exact Or.inl ⟨e, by simp [q2], q3⟩
          · refine Or.inr ⟨c1, c2, fun _ hv => ?_⟩
            show τ0.ip = ip
            have hlast : ∃ τ', lastHdr es0 = some τ' ∧ τ'.ip = τ0.ip := by
              rw [he, lastHdr_append, ← List.singleton_append, lastHdr_append]
              cases hp : lastHdr post with
              | none => exact ⟨τ0, by rw [hl]; rfl, rfl⟩
              | some τ' =>
                refine ⟨τ', by simp, ?_⟩
                obtain ⟨ts3, w3, hm⟩ := lastHdr_mem hp
                exact ((b3 _ _ _ _ _ hm).2.2 hv).symm
            obtain ⟨τ', l1, l2⟩ := hlast
            have hsip := i4 hfd
            rw [l1] at hsip
            simp only [Option.map_some, Option.getD_some] at hsip
            obtain ⟨ts3, w3, hm⟩ := lastHdr_mem l1
            have hne := (h.hdrOk _ _ _ _ _ (List.mem_append_left _ hm)).1
            have hvo := h.ver hv
            rw [← l2, ← hsip]
            by_contra hd
            have hne' : s.m.senderIp ≠ [] := by rw [hsip]; exact hne
            exact hbad (by simp [hvo, hd, hne'])
      · intro hx
        have hx' : s.settled = true := hx
        rw [i2] at hx'; cases hx'
      · simp
      · intro hx
        rcases h.claims hx with k1 | ⟨_, k2⟩ | k3
        · exact Or.inl k1
        · rw [husable] at k2; cases k2
        · obtain ⟨es, lost, c1, c2, c3, c4, c5, c6⟩ := k3
          refine Or.inr (Or.inr ⟨es, lost, c1, c2, c3, c4, c5, fun _ => ⟨(c6 i2).1, fun _ hv τ' hlh => ?_⟩⟩)
          have hsip := i4 hfd
          rw [hlh] at hsip
          simp only [Option.map_some, Option.getD_some] at hsip
          obtain ⟨ts3, w3, hm⟩ := lastHdr_mem hlh
          have hne := (h.hdrOk _ _ _ _ _ (List.mem_append_left _ hm)).1
          have hvo := h.ver hv
          show τ'.ip = ip
          rw [← hsip]
          by_contra hd
          have hne' : s.m.senderIp ≠ [] := by rw [hsip]; exact hne
          exact hbad (by simp [hvo, hd, hne'])
      · exact h.ver
      · exact h.cfg
  · have hus : s.usable = false := by
      by_contra hus
      exact hfd (h.opened (by simpa using hus) i2)
    have hwf : wr = false := by
      by_contra hx
      exact hfd (hwr (by simpa using hx)).1
    have hcm : s.m.connect ip ts w wc = { s.m with writer := wr, claims := [] } := by
      unfold LogMgr.connect
      rw [hm0]
      simp only [hfd, Bool.false_eq_true, if_false]
    have hfd' : s.m.fd = false := by simpa using hfd
    simp only [LogSys.step, hcm]
    refine Inv.up hu (es0 := es0) (es1 := es1) (t := t) (tr0 := tr0) (tr1 := []) ?_
    constructor
    · exact h.tr
    · exact h.log
    · exact h.q
    · exact h.hdrOk
    · simp
    · exact h.sub
    · intro ts' w' r i c hm
      exact absurd hm (hno2 _ _ _ _ _)
    · intro pre ts' n i sz post he
      exact absurd he (hno1 _ _ _ _ _ _)
    · exact h.pend
    · intro hx
      have hx' : s.m.headerWritten = true := hx
      rw [f2] at hx'; cases hx'
    · exact h.pendHw
    · intro hx; exact absurd hx hfd
    · intro _; exact ⟨f1, f2, f3⟩
    · intro hx; simp at hx
    · intro _ hx; exact absurd hx hfd
    · intro _; exact ⟨hfd', (h.unusable hus).2.1, (h.unusable hus).2.2.1, f1⟩
    · intro hx
      have hx' : s.usable = true := hx
      rw [hus] at hx'; cases hx'
    · intro hx
      have hx' : wr = true := hx
      rw [hwf] at hx'; cases hx'
    · intro hx
      have hx' : s.usable = true := hx
      rw [hus] at hx'; cases hx'
    · intro hx
      have hx' : s.settled = true := hx
      rw [i2] at hx'; cases hx'
    · simp
    · intro _; exact Or.inl rfl
    · exact h.ver
    · exact h.cfg

theorem writeLogHeader_claims (m : LogMgr) (ts : Int) (w wc : Nat) (c : List FileChunksInfo) :
    { m with claims := c }.writeLogHeader ts w wc = { m.writeLogHeader ts w wc with claims := c } := by
  unfold LogMgr.writeLogHeader LogMgr.closeLog LogMgr.flush
  by_cases hfd : m.fd = true
  · simp only [hfd, if_true]
    split
    · rfl
    · by_cases hd : m.env.dirTree = true
      · simp only [hd, if_true]
      · simp only [hd, Bool.false_eq_true, if_false]
        by_cases hw : m.writer = true
        · simp only [hw, if_true]
        · simp only [hw, Bool.false_eq_true, if_false]
  · simp only [hfd, Bool.false_eq_true, if_false]

/-- The part of `addTransferLogHeader` after a possible invalidation: the entries `es1` are
already followed by it. -/
theorem settle_header {v g : Bool} {s : LogSys} (hu : s.m.up = true) {es0 es1 : List LogEntry} {tr0 tr1 : List TItem}
    (h : Up v g s es0 es1 [] tr0 tr1) (hc : s.connected = true) (hset : s.settled = false) (hfd : s.m.fd = true)
    (husable : s.usable = true) (hk : s.resuming = false → ∃ ts, LogEntry.dirInvalidation ts ∈ es1)
    (ts : Int) (w wc : Nat) (hts : 0 ≤ ts ∧ ts ≤ int64Max) (cl : List FileChunksInfo)
    (hclaims : s.m.env.dirTree = false → cl = [] ∨ ∃ es lost, es0 = es ++ lost ∧ (∀ e ∈ lost, ∃ ts i, e = LogEntry.fileInvalidation ts i) ∧
      QOk v g es tr0 ∧ Says s.m.env es cl ∧ s.usable = true) :
    Inv v g { s with m := { (if !s.m.env.dirTree || s.m.status ≠ eINCONSISTENT_DIRECTORY then s.m.writeLogHeader ts w wc else s.m) with claims := cl }, settled := true } := by
  obtain ⟨f1, f2, f3⟩ := h.fresh hset
  obtain ⟨c1, c2, c3⟩ := h.conn hc hfd
  have hno1 : ∀ pre ts n i sz post, es1 ≠ pre ++ LogEntry.fileCreation ts n i sz :: post := by
    intro pre ts n i sz post he
    obtain ⟨_, hx⟩ := f3 (.fileCreation ts n i sz) (by rw [he]; simp)
    cases hx
  have hno2 : ∀ ts w r i c, LogEntry.header ts w r i c ∉ es1 := by
    intro ts w r i c he
    obtain ⟨_, hx⟩ := f3 _ he
    cases hx
  have hdata : g = true → ∀ τ n r, TItem.data τ n r ∈ tr1 → False := by
    intro hg τ n r hm
    have := (h.data hg τ n r hm).1
    rw [hset] at this; cases this
  by_cases hb : (!s.m.env.dirTree || s.m.status ≠ eINCONSISTENT_DIRECTORY) = true
  · rw [if_pos hb]
    obtain ⟨e1, e2⟩ := header_eq hfd f1 ts w wc
    have hrange : (LogEntry.header ts WLOG_VERSION s.m.env.recoveryId s.m.senderIp s.m.env.config).InRange := by
      rw [c1]
      refine ⟨hts, ?_, h.cfg.1, c3⟩
      constructor <;> decide
    obtain ⟨w1, w2⟩ := write_entry h.log hrange w
    by_cases hf : fullWrite (.header ts WLOG_VERSION s.m.env.recoveryId s.m.senderIp s.m.env.config) w = true
    · rw [e1 hf]
      refine Inv.up hu (es0 := es0) (es1 := es1 ++ [.header ts WLOG_VERSION s.m.env.recoveryId s.m.senderIp s.m.env.config]) (t := []) (tr0 := tr0) (tr1 := tr1) ?_
      constructor
      · exact h.tr
      · rw [← List.append_assoc]; exact w1 hf
      · exact h.q
      · rw [← List.append_assoc]
        intro ts' w' r i c hm
        rcases List.mem_append.1 hm with hm | hm
        · exact h.hdrOk _ _ _ _ _ hm
        · simp only [List.mem_singleton, LogEntry.header.injEq] at hm
          obtain ⟨_, _, rfl, rfl, rfl⟩ := hm
          rw [c1]; exact ⟨c2, c3⟩
      · exact h.items
      · have : (es1 ++ [LogEntry.header ts WLOG_VERSION s.m.env.recoveryId s.m.senderIp s.m.env.config]).filter LogEntry.isAdd = [] := by
          rw [List.filter_eq_nil_iff]
          intro e he
          rcases List.mem_append.1 he with he | he
          · obtain ⟨_, rfl⟩ := f3 e he; simp [LogEntry.isAdd]
          · rw [List.mem_singleton] at he; subst he; simp [LogEntry.isAdd]
        simp [f1, this]
      · intro ts' w' r i c hm
        rcases List.mem_append.1 hm with hm | hm
        · exact absurd hm (hno2 _ _ _ _ _)
        · simp only [List.mem_singleton, LogEntry.header.injEq] at hm
          obtain ⟨_, _, rfl, rfl, rfl⟩ := hm
          rw [c1]; rfl
      · intro pre ts' n i sz post he
        rcases split_append he with ⟨p, k1, _⟩ | ⟨p, _, k2⟩
        · exact absurd k1 (hno1 _ _ _ _ _ _)
        · have : LogEntry.fileCreation ts' n i sz ∈ [LogEntry.header ts WLOG_VERSION s.m.env.recoveryId s.m.senderIp s.m.env.config] := by rw [k2]; simp
          simp at this
      · exact h.pend
      · intro _
        rw [lastHdr_append, c1]; rfl
      · intro _ _ _; rfl
      · intro _ _; rfl
      · intro hx; cases hx
      · intro hx
        have hx' : s.connected = false := hx
        rw [hc] at hx'; cases hx'
      · intro _ _; exact ⟨c1, c2, c3⟩
      · intro hx
        have hx' : s.usable = false := hx
        rw [husable] at hx'; cases hx'
      · intro _ hx; cases hx
      · exact h.wfd
      · intro hx pre ts' n i sz post τ0 he hl
        rcases h.mine hx pre ts' n i sz post τ0 he hl with ⟨e, hm, hbr⟩ | hr
        · refine Or.inl ⟨e, ?_, hbr⟩
          rw [← List.append_assoc]; exact List.mem_append_left _ hm
        · exact Or.inr hr
      · intro _ _ hr
        obtain ⟨ts', hm⟩ := hk hr
        exact ⟨ts', List.mem_append_left _ hm⟩
      · intro hg τ n r hm; exact absurd (hdata hg τ n r hm) id
      · intro hx
        rcases hclaims hx with k1 | ⟨es, lost, k1, k2, k3, k4, k5⟩
        · exact Or.inl k1
        · exact Or.inr (Or.inr ⟨es, lost, k1, k2, k3, k4, k5, fun hy => by cases hy⟩)
      · exact h.ver
      · exact h.cfg
    · obtain ⟨t', hw⟩ := w2 (by simpa using hf)
      have hwr : (s.m.writer && s.m.env.dirTree) = false := by
        by_contra hx
        simp only [Bool.not_eq_false, Bool.and_eq_true] at hx
        have := (h.wfd hx.1).2
        rw [hx.2] at this; cases this
      rw [e2 (by simpa using hf), hwr]
      refine Inv.up hu (es0 := es0) (es1 := es1) (t := t') (tr0 := tr0) (tr1 := tr1) ?_
      exact { h with
        log := hw
        torn := fun hx => by cases hx
        fresh := fun hx => by cases hx
        idle := fun hx => by
          have hx' : s.connected = false := hx
          rw [hc] at hx'; cases hx'
        conn := fun _ hx => by cases hx
        unusable := fun hx => by
          have hx' : s.usable = false := hx
          rw [husable] at hx'; cases hx'
        opened := fun _ hx => by cases hx
        wfd := fun hx => by cases hx
        kind := fun _ _ hr => hk hr
        data := fun hg τ n r hm => absurd (hdata hg τ n r hm) id
        claims := fun hx => by
          rcases hclaims hx with k1 | ⟨es, lost, k1, k2, k3, k4, k5⟩
          · exact Or.inl k1
          · exact Or.inr (Or.inr ⟨es, lost, k1, k2, k3, k4, k5, fun hy => by cases hy⟩) }
  · rw [if_neg hb]
    refine Inv.up hu (es0 := es0) (es1 := es1) (t := []) (tr0 := tr0) (tr1 := tr1) ?_
    exact { h with
      torn := fun _ _ => rfl
      fresh := fun hx => by cases hx
      idle := fun hx => by
        have hx' : s.connected = false := hx
        rw [hc] at hx'; cases hx'
      opened := fun _ hx => by cases hx
      kind := fun _ _ hr => hk hr
      data := fun hg τ n r hm => absurd (hdata hg τ n r hm) id
      claims := fun hx => by
        rcases hclaims hx with k1 | ⟨es, lost, k1, k2, k3, k4, k5⟩
        · exact Or.inl k1
        · exact Or.inr (Or.inr ⟨es, lost, k1, k2, k3, k4, k5, fun hy => by cases hy⟩) }

theorem settle_inv {v g : Bool} {s : LogSys} (hu : s.m.up = true) {es0 es1 : List LogEntry} {t : Bytes} {tr0 tr1 : List TItem}
    (h : Up v g s es0 es1 t tr0 tr1) (bm : Bool) (ts1 ts2 : Int) (w1 w2 wc : Nat)
    (ha : s.Allowed (.settle bm ts1 ts2 w1 w2 wc)) : Inv v g (s.step (.settle bm ts1 ts2 w1 w2 wc)) := by
  obtain ⟨_, hc, hset, hts1, hts2⟩ := ha
  obtain ⟨f1, f2, f3⟩ := h.fresh hset
  by_cases hfd : s.m.fd = true
  · have ht := h.torn hfd (Or.inr (Or.inl hset))
    subst ht
    have husable : s.usable = true := by
      by_contra hus
      have := (h.unusable (by simpa using hus)).1
      rw [hfd] at this; cases this
    have hdata : g = true → ∀ τ n r, TItem.data τ n r ∈ tr1 → False := by
      intro hg τ n r hm
      have := (h.data hg τ n r hm).1
      rw [hset] at this; cases this
    by_cases hb : (!s.resuming || (s.m.env.dirTree && bm)) = true
    · obtain ⟨e1, e2⟩ := invalidate_eq hfd f1 ts1 w1 wc
      have hts' : (LogEntry.dirInvalidation ts1).InRange := hts1
      obtain ⟨k1, k2⟩ := write_entry h.log hts' w1
      by_cases hf : fullWrite (.dirInvalidation ts1) w1 = true
      · have hup : Up v g { s with m := { s.m with status := eINCONSISTENT_DIRECTORY, log := s.m.log ++ (recBytes (.dirInvalidation ts1)).take w1, claims := [] } }
            es0 (es1 ++ [.dirInvalidation ts1]) [] tr0 tr1 := by
          exact { h with
            log := (by rw [← List.append_assoc]; exact k1 hf)
            hdrOk := (by rw [← List.append_assoc]; exact h.hdrOk.append (by simp))
            sub := (by
              have : (es1 ++ [LogEntry.dirInvalidation ts1]).filter LogEntry.isAdd = [] := by
                rw [List.filter_eq_nil_iff]
                intro e he
                rcases List.mem_append.1 he with he | he
                · obtain ⟨_, rfl⟩ := f3 e he; simp [LogEntry.isAdd]
                · rw [List.mem_singleton] at he; subst he; simp [LogEntry.isAdd]
              simp [f1, this])
            hdr1 := fun ts w r i c hm => by
              rcases List.mem_append.1 hm with hm | hm
              · exact h.hdr1 _ _ _ _ _ hm
              · simp at hm
            cre1 := fun pre ts n i sz post he => by
              rcases split_append he with ⟨p, k1, _⟩ | ⟨p, _, k2⟩
              · exact h.cre1 _ _ _ _ _ _ k1
              · have : LogEntry.fileCreation ts n i sz ∈ [LogEntry.dirInvalidation ts1] := by rw [k2]; simp
                simp at this
            hw := fun hx => by
              have hx' : s.m.headerWritten = true := hx
              rw [f2] at hx'; cases hx'
            torn := fun _ _ => rfl
            fresh := fun _ => ⟨f1, f2, fun e he => by
              rcases List.mem_append.1 he with he | he
              · exact f3 e he
              · rw [List.mem_singleton] at he; exact ⟨_, he⟩⟩
            unusable := fun hx => by
              have hx' : s.usable = false := hx
              rw [husable] at hx'; cases hx'
            mine := fun hx pre ts n i sz post τ0 he hl => by
              rcases h.mine hx pre ts n i sz post τ0 he hl with ⟨e, hm, hbr⟩ | hr
              · refine Or.inl ⟨e, ?_, hbr⟩
                rw [← List.append_assoc]; exact List.mem_append_left _ hm
              · exact Or.inr hr
            kind := fun hx => by
              have hx' : s.settled = true := hx
              rw [hset] at hx'; cases hx'
            claims := fun _ => Or.inl rfl }
        have hm : s.m.logHeader bm s.resuming ts1 ts2 w1 w2 wc =
            { (if !s.m.env.dirTree || eINCONSISTENT_DIRECTORY ≠ eINCONSISTENT_DIRECTORY then LogMgr.writeLogHeader ts2 w2 wc { s.m with status := eINCONSISTENT_DIRECTORY, log := s.m.log ++ (recBytes (.dirInvalidation ts1)).take w1, claims := [] } else { s.m with status := eINCONSISTENT_DIRECTORY, log := s.m.log ++ (recBytes (.dirInvalidation ts1)).take w1, claims := [] }) with claims := s.m.claims } := by
          unfold LogMgr.logHeader
          simp only [if_pos hb, e1 hf, hu, if_true]
          by_cases hx : (!s.m.env.dirTree || eINCONSISTENT_DIRECTORY ≠ eINCONSISTENT_DIRECTORY) = true
          · rw [if_pos hx, if_pos hx, ← writeLogHeader_claims]
          · rw [if_neg hx, if_neg hx]
        simp only [LogSys.step, hm]
        refine settle_header (s := { s with m := { s.m with status := eINCONSISTENT_DIRECTORY, log := s.m.log ++ (recBytes (.dirInvalidation ts1)).take w1, claims := [] } }) hu hup hc hset hfd husable (fun _ => ⟨ts1, List.mem_append_right _ (List.mem_singleton.2 rfl)⟩) ts2 w2 wc hts2 s.m.claims ?_
        intro hx
        rcases h.claims hx with k1 | ⟨k2, _⟩ | ⟨es, lost, k1, k2, k3, k4, k5, _⟩
        · exact Or.inl k1
        · rw [hc] at k2; cases k2
        · exact Or.inr ⟨es, lost, k1, k2, k3, k4, k5⟩
      · obtain ⟨d1, d2⟩ := e2 (by simpa using hf)
        obtain ⟨t', hw⟩ := k2 (by simpa using hf)
        have hm : s.m.logHeader bm s.resuming ts1 ts2 w1 w2 wc = s.m.invalidateDirectory ts1 w1 wc := by
          unfold LogMgr.logHeader
          simp only [if_pos hb, d2, Bool.false_eq_true, if_false]
        refine Inv.down (by simp only [LogSys.step, hm, d2]) ⟨es0 ++ es1, t', ?_, h.q_all, h.hdrOk⟩
        simp only [LogSys.step, hm, d1]
        exact hw
    · have hm : s.m.logHeader bm s.resuming ts1 ts2 w1 w2 wc =
          { (if !s.m.env.dirTree || s.m.status ≠ eINCONSISTENT_DIRECTORY then s.m.writeLogHeader ts2 w2 wc else s.m) with claims := s.m.claims } := by
        unfold LogMgr.logHeader
        simp only [if_neg hb, hu, if_true]
        by_cases hx : (!s.m.env.dirTree || s.m.status ≠ eINCONSISTENT_DIRECTORY) = true
        · rw [if_pos hx, ← writeLogHeader_claims]
        · rw [if_neg hx]
      have hr : s.resuming = true := by
        by_contra hr
        exact hb (by simp [hr])
      simp only [LogSys.step, hm]
      exact settle_header hu h hc hset hfd husable (fun hx => by rw [hr] at hx; cases hx) ts2 w2 wc hts2 s.m.claims (fun hx => by
        rcases h.claims hx with k1 | ⟨k2, _⟩ | ⟨es, lost, k1, k2, k3, k4, k5, _⟩
        · exact Or.inl k1
        · rw [hc] at k2; cases k2
        · exact Or.inr ⟨es, lost, k1, k2, k3, k4, k5⟩)
  · have hfd' : s.m.fd = false := by simpa using hfd
    have hus : s.usable = false := by
      by_contra hus
      exact hfd (h.opened (by simpa using hus) hset)
    have hm : s.m.logHeader bm s.resuming ts1 ts2 w1 w2 wc = s.m := by
      unfold LogMgr.logHeader LogMgr.invalidateDirectory LogMgr.writeLogHeader
      simp [hfd']
    simp only [LogSys.step, hm]
    refine Inv.up hu (es0 := es0) (es1 := es1) (t := t) (tr0 := tr0) (tr1 := tr1) ?_
    exact { h with
      torn := fun hx => absurd hx hfd
      fresh := fun hx => by cases hx
      idle := fun hx => by
        have hx' : s.connected = false := hx
        rw [hc] at hx'; cases hx'
      opened := fun _ hx => by cases hx
      kind := fun _ hx => by
        have hx' : s.usable = true := hx
        rw [hus] at hx'; cases hx'
      data := fun hg τ n r hm => by
        have := (h.data hg τ n r hm).2
        rw [hus] at this; cases this
      claims := fun hx => by
        rcases h.claims hx with k1 | ⟨k2, _⟩ | ⟨es, lost, k1, k2, k3, k4, k5, _⟩
        · exact Or.inl k1
        · rw [hc] at k2; cases k2
        · rw [hus] at k5; cases k5 }

end Wdt
