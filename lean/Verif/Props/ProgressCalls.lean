import Verif.Lemmas.ProgressCalls
/-
C104: the calls of a progress reporter, and the current throughput.
-/
namespace Wdt

/-! ### The order of the calls -/

/-- **C104**: in every execution the calls are `start`, then some calls of `progress` one after the other, then `end`;
none begins before the one before has returned, and none is made twice. -/
theorem C104_order (c : PgCfg) (t : Int) (evs : List PgEv) (s : PgSt) (h : pgRun c { wall := t } evs = .ok s) :
    ∃ k, pgCalls s.obs <+: [.start, .startRet] ++ (List.replicate k [PgCall.prog, PgCall.progRet]).flatten ++ [.stop, .stopRet] := by
  have hi := (PgInv.init False c t).run (fun hf => hf.elim) h
  -- with the calls of the reporter begun
  have run : ∀ k, c.starts = true → pgCalls s.obs = pgPre c ++ pgBody k ++ pgOpen s.tr →
      ∃ k, pgCalls s.obs <+: [.start, .startRet] ++ (List.replicate k [PgCall.prog, PgCall.progRet]).flatten ++ [.stop, .stopRet] := by
    intro k hst hk
    refine ⟨k + 1, ?_⟩
    rw [hk, pgPre, if_pos hst]
    change _ <+: [.start, .startRet] ++ pgBody (k + 1) ++ [.stop, .stopRet]
    rw [pgBody_succ]
    by_cases ho : s.tr = .inProgress
    · rw [pgOpen, if_pos ho]
      exact ⟨[.progRet, .stop, .stopRet], by simp⟩
    · rw [pgOpen, if_neg ho]
      exact ⟨[.prog, .progRet, .stop, .stopRet], by simp⟩
  -- without
  have nil : ∀ (k : Nat) (tr : PgTr), c.starts = false → pgQuiet c tr k → pgPre c ++ pgBody k ++ pgOpen tr = [] := by
    intro k tr hst hq
    obtain ⟨h1, h2⟩ := hq hst
    rw [h1, pgPre, hst]
    rcases h2 with h2 | h2 | h2
    · simp [pgBody, h2, pgOpen]
    · simp [pgBody, h2.1, pgOpen]
    · simp [pgBody, h2, pgOpen]
  have fin : ∀ x : List PgCall, x = [] → ∃ k, x <+: [.start, .startRet] ++ (List.replicate k [PgCall.prog, PgCall.progRet]).flatten ++ [.stop, .stopRet] :=
    fun x hx => ⟨0, by rw [hx]; exact List.nil_prefix⟩
  unfold PgInv at hi
  cases happ : s.app <;> simp only [happ] at hi
  · exact fin _ hi.1
  · exact fin _ hi.1
  · exact ⟨0, by rw [hi.2.1]; exact ⟨[.startRet, .stop, .stopRet], rfl⟩⟩
  · rw [hi.1]
    unfold pgPre
    split
    · exact ⟨0, ⟨[.stop, .stopRet], rfl⟩⟩
    · exact fin _ rfl
  · obtain ⟨k, hk, hq⟩ := hi
    cases hst : c.starts
    · exact fin _ (by rw [hk, nil k _ hst hq])
    · exact run k hst hk
  · obtain ⟨k, hk, hq⟩ := hi
    cases hst : c.starts
    · exact fin _ (by rw [hk, nil k _ hst hq])
    · exact run k hst hk
  · obtain ⟨k, hk, hq⟩ := hi
    cases hst : c.starts
    · exact fin _ (by rw [hk, nil k _ hst hq])
    · exact run k hst hk
  · obtain ⟨hd, k, hk, hq⟩ := hi
    have ho : pgOpen s.tr = [] := by rcases hd with hd | hd <;> simp [hd, pgOpen]
    cases hst : c.starts
    · exact fin _ (by rw [hk]; have := nil k _ hst hq; rw [ho, List.append_nil] at this; exact this)
    · exact run k hst (by rw [hk, ho, List.append_nil])
  · obtain ⟨hst, _, k, hk⟩ := hi
    refine ⟨k, ?_⟩
    rw [hk, pgPre, if_pos hst]
    exact ⟨[.stopRet], by simp [pgBody]⟩
  · obtain ⟨hd, k, h0, hk⟩ := hi
    cases hst : c.starts
    · refine fin _ ?_
      rcases hk with hk | ⟨_, hk⟩
      · rw [hk, h0 hst, pgPre, pgPost, hst]; simp [pgBody]
      · rw [hk, h0 hst, pgPre, hst]; simp [pgBody]
    · refine ⟨k, ?_⟩
      rcases hk with hk | ⟨_, hk⟩
      · rw [hk, pgPre, pgPost, if_pos hst, if_pos hst]
        exact List.prefix_rfl
      · rw [hk, pgPre, if_pos hst]
        exact ⟨[.stop, .stopRet], by simp [pgBody]⟩

/-- **C104**, partial: when `finish` has returned, the reporter that was told of the start has been told of the end too.
For a receiver only if it has learnt how much the sender sends; see `C104_violated_no_end`. -/
theorem C104_complete_partial (c : PgCfg) (t : Int) (evs : List PgEv) (s : PgSt) (h : pgRun c { wall := t } evs = .ok s)
    (hover : s.app = .over) (htotal : c.sender = false → ∀ n, .appEnd n ∈ evs → 0 ≤ n)
    (huse : 0 < c.p ∨ (c.sender = false ∧ c.given = true)) :
    ∃ k, pgCalls s.obs = [.start, .startRet] ++ (List.replicate k [PgCall.prog, PgCall.progRet]).flatten ++ [.stop, .stopRet] := by
  have hst : c.starts = true := by
    unfold PgCfg.starts PgCfg.present
    rcases huse with hp | ⟨h1, h2⟩
    · cases c.sender <;> simp [hp]
    · simp [h1, h2]
  have hi := (PgInv.init True c t).run (fun _ n hn => by
    rw [hst]
    unfold PgCfg.ends
    cases hs : c.sender
    · have hp : c.present = true := by rw [PgCfg.starts, hs] at hst; simpa using hst
      simp [hp, htotal hs n hn]
    · rw [PgCfg.starts, hs] at hst; simpa using hst) h
  unfold PgInv at hi
  simp only [hover] at hi
  obtain ⟨_, k, _, hk⟩ := hi
  rcases hk with hk | ⟨hk, _⟩
  · exact ⟨k, by rw [hk, pgPre, pgPost, if_pos hst, if_pos hst]; rfl⟩
  · exact absurd trivial hk

/-- **C104**: a reporter that is not to be used is not called: with an interval of 0 (or less) a sender calls none, and a
receiver none unless the application gave it one. -/
theorem C104_unused (c : PgCfg) (t : Int) (evs : List PgEv) (s : PgSt) (h : pgRun c { wall := t } evs = .ok s)
    (hp : c.p ≤ 0) (hg : c.sender = true ∨ c.given = false) : pgCalls s.obs = [] := by
  have hst : c.starts = false := by
    unfold PgCfg.starts PgCfg.present
    rcases hg with hg | hg
    · simp [hg]; omega
    · cases c.sender <;> simp [hg] <;> omega
  have hi := (PgInv.init False c t).run (fun hf => hf.elim) h
  have hpre : pgPre c = [] := by rw [pgPre, hst]; rfl
  have nil : ∀ (k : Nat) (tr : PgTr), pgQuiet c tr k → pgPre c ++ pgBody k ++ pgOpen tr = [] := by
    intro k tr hq
    obtain ⟨h1, h2⟩ := hq hst
    rw [h1, hpre]
    rcases h2 with h2 | h2 | h2
    · simp [pgBody, h2, pgOpen]
    · simp [pgBody, h2.1, pgOpen]
    · simp [pgBody, h2, pgOpen]
  unfold PgInv at hi
  cases happ : s.app <;> simp only [happ] at hi
  · exact hi.1
  · exact hi.1
  · rw [hst] at hi; cases hi.1
  · rw [hi.1, hpre]
  · obtain ⟨k, hk, hq⟩ := hi; rw [hk, nil k _ hq]
  · obtain ⟨k, hk, hq⟩ := hi; rw [hk, nil k _ hq]
  · obtain ⟨k, hk, hq⟩ := hi; rw [hk, nil k _ hq]
  · obtain ⟨_, k, hk, hq⟩ := hi
    rw [hk, hpre, (hq hst).1]; rfl
  · rw [hst] at hi; cases hi.1
  · obtain ⟨_, k, h0, hk⟩ := hi
    rcases hk with hk | ⟨_, hk⟩
    · rw [hk, hpre, h0 hst, pgPost, hst]; rfl
    · rw [hk, hpre, h0 hst]; rfl

/-- Start of a transfer, up to the beginning of the loop. -/
def exPgStart : List PgEv := [.appStart, .appCallStart, .appStartRet, .appMake, .trEntry]

/-- One turn of the loop. -/
def exPgTurn (ns : Nat) (eff : Int) : List PgEv :=
  [.trWait, .tick ns, .trTimeout, .trTest, .trRead eff, .trReport, .trRet]

/-- The end, with the thread that reports waiting. -/
def exPgEnd (total : Int) : List PgEv :=
  [.trWait, .workersEnd, .appFinish, .appJoined, .trTest, .appTracker, .appEnd total, .appEndRet]

example : ∃ s, pgRun ⟨false, false, 20, 500⟩ { wall := 5 }
      (exPgStart ++ exPgTurn 20000000 100 ++ exPgTurn 30000000 250 ++ exPgEnd 250) = .ok s ∧ s.app = .over ∧
    pgCalls s.obs = [.start, .startRet, .prog, .progRet, .prog, .progRet, .stop, .stopRet] :=
  ⟨_, rfl, by decide +kernel, by decide +kernel⟩

example : ∃ s, pgRun ⟨true, true, 0, 500⟩ { wall := 5 }
      [.appStart, .appCallStart, .appMake, .work, .workersEnd, .appFinish, .appJoined, .appTracker, .appEnd 0] = .ok s ∧
    s.app = .over ∧ pgCalls s.obs = [] :=
  ⟨_, rfl, by decide +kernel, by decide +kernel⟩

/-! ### The current throughput -/

/-- **C104**: with `M = max 1 (throughput_update_interval / progress_report_interval)`, report `i` (counted from 1) says
as current throughput the bytes transferred between reports `(q-1)*M` and `q*M`, over the time between them, where
`q = i / M`; the transfer's start stands for report 0, and before report `M` it says 0.  So the stretches measured follow
each other without gap or overlap. -/
theorem C104_throughput (c : PgCfg) (t : Int) (evs : List PgEv) (s : PgSt) (h : pgRun c { wall := t } evs = .ok s)
    (M : Nat) (hM : M = max 1 (c.u.tdiv c.p).toNat) (i : Nat) (r : PgRep) (hr : (pgReps s.obs)[i]? = some r) :
    let eff := fun j : Nat => if j = 0 then 0 else (((pgReps s.obs)[j - 1]?).map PgRep.eff).getD 0
    let time := fun j : Nat => if j = 0 then s.t0 else (((pgReps s.obs)[j - 1]?).map PgRep.time).getD 0
    let q := (i + 1) / M
    r.cur = if q = 0 then none else some (eff (q * M) - eff ((q - 1) * M), time (q * M) - time ((q - 1) * M)) := by
  have := ((PgNum.init c t).run h).past i r hr
  rw [show pgEvery c = M from hM.symm] at this
  exact this

/-- **C104**: the throughput is measured anew at least every `throughput_update_interval`, if that is not less than the
interval of the reports. -/
theorem C104_update_interval (c : PgCfg) (hp : 0 < c.p) (hu : 0 ≤ c.u) :
    ((max 1 (c.u.tdiv c.p).toNat : Nat) : Int) * c.p ≤ max c.u c.p := by
  have h1 : c.u.tdiv c.p * c.p ≤ c.u := by
    rw [Int.tdiv_eq_ediv_of_nonneg hu]
    exact Int.ediv_mul_le _ (by omega)
  have h0 : 0 ≤ c.u.tdiv c.p := Int.tdiv_nonneg hu (by omega)
  rcases Nat.lt_or_ge 1 (c.u.tdiv c.p).toNat with hlt | hge
  · rw [Nat.max_eq_right (by omega), Int.toNat_of_nonneg h0]; omega
  · rw [Nat.max_eq_left hge]; simp; omega

/-- **C104**, partial: the time by which bytes are divided is at least `M` intervals of the reports, so there is no
division by 0; provided the system's clock is not set and waiting does not end early without a reason (which the C++
standard allows); see `C104_violated_division`. -/
theorem C104_time_partial (c : PgCfg) (t : Int) (evs : List PgEv) (s : PgSt) (h : pgRun c { wall := t } evs = .ok s)
    (hclock : ∀ e ∈ evs, (∀ x, e ≠ .setClock x) ∧ e ≠ .trSpurious) (r : PgRep) (hr : r ∈ pgReps s.obs)
    (bytes time : Int) (hc : r.cur = some (bytes, time)) :
    ((max 1 (c.u.tdiv c.p).toNat * (c.p.toNat * 1000000) : Nat) : Int) ≤ time ∧ 0 < time := by
  have hn := (PgNum.init c t).run h
  have ht := (PgTime.init c t).run (PgNum.init c t) (fun e he => by
    obtain ⟨a, b⟩ := hclock e he
    cases e <;> first | rfl | exact absurd rfl (a _) | exact absurd rfl b) h
  obtain ⟨i, hi⟩ := List.mem_iff_getElem?.1 hr
  have hp := hn.past i r hi
  have hlt : i < (pgReps s.obs).length := by
    rcases Nat.lt_or_ge i (pgReps s.obs).length with hh | hh
    · exact hh
    · rw [List.getElem?_eq_none hh] at hi; cases hi
  rw [hc] at hp
  unfold tputAt at hp
  by_cases hq : (i + 1) / pgEvery c = 0
  · rw [if_pos hq] at hp; cases hp
  · rw [if_neg hq] at hp
    simp only [Option.some.injEq, Prod.mk.injEq] at hp
    have hM := every_pos c
    have hle : (i + 1) / pgEvery c * pgEvery c ≤ i + 1 := Nat.div_mul_le_self _ _
    have hsplit : ((i + 1) / pgEvery c - 1) * pgEvery c + pgEvery c = (i + 1) / pgEvery c * pgEvery c := by
      rw [← Nat.succ_mul]; congr 1; exact Nat.succ_pred_eq_of_ne_zero hq
    have hs := ht.span (((i + 1) / pgEvery c - 1) * pgEvery c) (pgEvery c) (by omega)
    rw [hsplit] at hs
    have hge : ((pgEvery c * msNs c.p : Nat) : Int) ≤ time := by omega
    refine ⟨hge, ?_⟩
    -- there is a report, so the interval is positive
    have hpos : 0 < c.p := pgRun_used (PgNum.init c t) (fun hne => absurd rfl hne) h (List.ne_nil_of_mem hr)
    have : 0 < pgEvery c * msNs c.p := Nat.mul_pos hM (by unfold msNs; omega)
    omega

/-- Reports every 20 ms, throughput every 40 ms: 0, then 250 bytes in 50 ms, which the next report repeats. -/
example : ∃ s, pgRun ⟨true, false, 20, 40⟩ { wall := 5 }
      (exPgStart ++ exPgTurn 20000000 100 ++ exPgTurn 30000000 250 ++ exPgTurn 20000000 300 ++ exPgTurn 20000000 400) = .ok s ∧
    (pgReps s.obs).map PgRep.cur = [none, some (250, 50000000), some (250, 50000000), some (150, 40000000)] ∧
    (∀ e ∈ exPgStart ++ exPgTurn 20000000 100, (∀ x, e ≠ .setClock x) ∧ e ≠ .trSpurious) :=
  ⟨_, rfl, by decide +kernel, by simp [exPgStart, exPgTurn]⟩

/-! ### The end -/

/-- **C104**: once the threads of the transfer have been joined, the thread that reports takes at most six more steps, of
which at most one is a call of `progress`, whatever else happens. -/
theorem C104_stops (c : PgCfg) (t : Int) (evs evs' : List PgEv) (s s' : PgSt) (h : pgRun c { wall := t } evs = .ok s)
    (hj : .joined ∈ s.obs) (h' : pgRun c s evs' = .ok s') :
    (evs'.filter PgEv.ofTracker).length ≤ 6 ∧ (pgReps s'.obs).length ≤ (pgReps s.obs).length + 1 := by
  have hl := PgLate.run (l := evs) (c := c) (s := { wall := t }) (fun hc => by cases hc) h
  have hst : s.status = .joined := ((PgPast.init t).run (fun hc => by cases hc) h).1 hj
  obtain ⟨h1, h2⟩ := pgRun_late hst hl h'
  have h3 : s.tr.left ≤ 6 := by cases s.tr <;> simp [PgTr.left]
  have h4 : s.tr.calls ≤ 1 := by cases s.tr <;> simp [PgTr.calls]
  omega

/-- **C104**: `finish` can always return: when it waits for the thread that reports, that thread can come to its end by
steps of its own, while time passes. -/
theorem C104_finish_returns (c : PgCfg) (t : Int) (evs : List PgEv) (s : PgSt) (h : pgRun c { wall := t } evs = .ok s)
    (hu : 0 ≤ c.u) (hf : c.u ≤ 2147483647) (ha : s.app = .joinTracker) :
    ∃ l s' , (∀ e ∈ l, e.ofTracker = true ∨ ∃ d, e = .tick d) ∧ pgRun c s (l ++ [.appTracker]) = .ok s' ∧
      s'.app = .haveReport := by
  have hl := PgLate.run (l := evs) (c := c) (s := { wall := t }) (fun hc => by cases hc) h
  have hj : s.status = .joined := ((PgPast.init t).run (fun hc => by cases hc) h).2 ha
  obtain ⟨l, s1, p1, p2, p3, p4⟩ := pgTracker_ends (c := c) (by simp [fitsInt]; omega) (fun _ => hu) s.tr.left s (Nat.le_refl _) hj hl
    ((PgNum.init c t).run h) (PgMade.run (s := { wall := t }) (fun hc => by cases hc) h)
  refine ⟨l, { s1 with app := .haveReport }, p1, ?_, rfl⟩
  rw [pgRun_append p2]
  simp [pgRun, pgStep, p4, ha, p3]

/-- The threads are joined while a report is being made: the call of `progress` still begins, and is the last. -/
example : ∃ s s', pgRun ⟨true, true, 20, 500⟩ { wall := 5 }
      (exPgStart ++ [.trWait, .tick 20000000, .trTimeout, .trTest, .workersEnd, .appFinish, .appJoined]) = .ok s ∧
    .joined ∈ s.obs ∧ s.app = .joinTracker ∧ (pgReps s.obs).length = 0 ∧
    pgRun ⟨true, true, 20, 500⟩ s [.trRead 7, .trReport, .trRet, .trWait, .tick 20000000, .trTimeout, .trTest, .appTracker] = .ok s' ∧
    (pgReps s'.obs).length = 1 ∧ s'.app = .haveReport :=
  ⟨_, _, rfl, by decide +kernel, by decide +kernel, by decide +kernel, rfl, by decide +kernel, by decide +kernel⟩

/-- **C104**: nothing goes wrong, except that a sender with a negative `throughput_update_interval` dies, see
`C104_violated_dies`, and a receiver that is started twice.  The options are `int`s. -/
theorem C104_no_fault (c : PgCfg) (t : Int) (evs : List PgEv) (f : Fault) (hu : -2147483648 ≤ c.u ∧ c.u ≤ 2147483647)
    (h : pgRun c { wall := t } evs = .fault f) :
    f = .check ∧ ((c.sender = true ∧ 0 < c.p ∧ c.u < 0) ∨ (c.sender = false ∧ 2 ≤ evs.count .appStart)) := by
  exact pgRun_fault (by simp [fitsInt]; omega) (PgNum.init c t) (fun hc => by cases hc) h

/-! ### What does not hold -/

/-- C104 fails: a receiver whose sender never said how much it sends (for example because no sender came) tells the
reporter of the start, and of progress, but not of the end. -/
theorem C104_violated_no_end : ∃ s, pgRun ⟨false, true, 20, 500⟩ { wall := 5 }
      (exPgStart ++ exPgTurn 20000000 0 ++
        [.trWait, .workersEnd, .appFinish, .appJoined, .trTest, .appTracker, .appEnd (-1)]) = .ok s ∧ s.app = .over ∧
    pgCalls s.obs = [.start, .startRet, .prog, .progRet] := ⟨_, rfl, by decide +kernel, by decide +kernel⟩

/-- C104 fails: with a negative `throughput_update_interval` a sender starts the transfer and then dies; a receiver with
the same options works, without reports. -/
theorem C104_violated_dies : pgRun ⟨true, false, 20, -1⟩ { wall := 5 }
      [.appStart, .work, .appCallStart, .appStartRet, .appMake, .work, .trEntry] = .fault .check ∧
    ∃ s, pgRun ⟨false, false, 20, -1⟩ { wall := 5 }
      [.appStart, .work, .appCallStart, .appStartRet, .appMake, .work, .trEntry, .workersEnd, .appFinish, .appJoined,
       .appTracker, .appEnd 9, .appEndRet] = .ok s ∧ pgCalls s.obs = [.start, .startRet, .stop, .stopRet] :=
  ⟨rfl, _, rfl, by decide +kernel⟩

/-- C104 fails: "this method is called before the transfer starts" (Reporting.h:486), but data may be transferred before
`start` is called. -/
theorem C104_violated_start : ∃ s, pgRun ⟨true, true, 20, 500⟩ { wall := 5 } [.appStart, .work, .work, .appCallStart] = .ok s ∧
    s.obs = [.work, .work, .startCall] := ⟨_, rfl, rfl⟩

/-- C104 fails: the clock that is read can be set, and waiting can end early: then bytes are divided by a negative time
or by 0. -/
theorem C104_violated_division :
    (∃ s, pgRun ⟨true, false, 20, 20⟩ { wall := 1000000000 }
      (exPgStart ++ [.setClock 5] ++ exPgTurn 20000000 100) = .ok s ∧
      (pgReps s.obs).map PgRep.cur = [some (100, -979999995)]) ∧
    ∃ s, pgRun ⟨true, false, 20, 20⟩ { wall := 5 }
      (exPgStart ++ [.trWait, .trSpurious, .trTest, .trRead 0, .trReport]) = .ok s ∧
      (pgReps s.obs).map PgRep.cur = [some (0, 0)] :=
  ⟨⟨_, rfl, by decide +kernel⟩, _, rfl, by decide +kernel⟩

/-- C104 fails: a current throughput below 0.  What a connection has sent without the receiver having got it is
subtracted again when the connection breaks (util/ThreadTransferHistory.cpp:199-225): the bytes read from the sender's
threads at one report are 9, at the next 0. -/
theorem C104_violated_negative :
    (∃ s s', sRun (SSys.init 0 false 1) [.discover ⟨[98], 9⟩, .finishDiscovery,
        .pop 0 { name := [98], seqId := 1, fileSize := 9, status := 0, offset := 0, size := 9 }, .openOk 0, .sent 0 (.ok 0)] = .ok s ∧ readThreads s 0 [[]] = .ok 9 ∧
      sRun s [.returnUnacked 0] = .ok s' ∧ readThreads s' 0 [[]] = .ok 0) ∧
    ∃ s, pgRun ⟨true, false, 20, 20⟩ { wall := 5 } (exPgStart ++ exPgTurn 20000000 9 ++ exPgTurn 20000000 0) = .ok s ∧
      (pgReps s.obs).map PgRep.cur = [some (9, 20000000), some (-9, 20000000)] :=
  ⟨⟨_, _, rfl, rfl, rfl, rfl⟩, _, rfl, by decide +kernel⟩

/-- C104 fails: the end of the transfer wakes the thread that reports only if it waits at that moment.  If it does not
wait yet, or is in `progress`, it will not notice before it has waited for a whole interval, and `finish` with it,
however long the interval. -/
theorem C104_violated_delay (p : Int) (hp : 0 < p) : ∃ s, pgRun ⟨true, true, p, 500⟩ {}
      (exPgStart ++ [.workersEnd, .appFinish, .appJoined, .trWait]) = .ok s ∧ .joined ∈ s.obs ∧ s.now = 0 ∧
    ∀ l s', .trSpurious ∉ l → pgRun ⟨true, true, p, 500⟩ s l = .ok s' → s'.app ≠ .joinTracker → p * 1000000 ≤ s'.now := by
  refine ⟨{
    status := .joined, alive := false, app := .joinTracker, tr := .waiting (0 + msNs p), m := (500 : Int).tdiv p
    obs := [.startCall, .startRet, .joined] }, ?_, by simp, rfl, ?_⟩
  · simp [pgRun, pgStep, exPgStart, PgCfg.starts, PgCfg.makes, pgEntry, hp]
  · intro l s' h1 h2 h3
    have := pgRun_waits (d := 0 + msNs p) rfl (by intro _; exact ⟨rfl, .inl rfl⟩) rfl rfl h1 h2 h3
    unfold msNs at this
    omega

end Wdt
