import Verif.Model.Lifecycle
import Verif.Props.Reporting
/-
C86: calls on sender and receiver objects in any order.
-/
namespace Wdt

/-! ## Sender -/

/-- `finish` is called only before `transferAsync`, or after it has returned. -/
def FinishApart (es : List SCall) : Prop :=
  ∀ es1 fs fd t n es2, es = es1 ++ .finish fs fd t n :: es2 → SCall.start ∈ es1 → SCall.started ∈ es1

theorem sCall_flags {o o' : SObj} {e : SCall} {out : ApiOut} (h : sCall o e = .ok (some (o', out))) :
    (o'.status ≠ .notStarted ↔ o.status ≠ .notStarted ∨ e = .start) ∧
    (o.made = true ∨ e = .started → o'.made = true) ∧ o'.n = o.n := by
  cases e with
  | start =>
    simp only [sCall] at h
    split at h
    · cases h; rename_i hs; exact ⟨by simp [hs], by simp, rfl⟩
    · cases h; exact ⟨by simp, by simp, rfl⟩
  | started =>
    simp only [sCall] at h
    split at h
    · cases h; rename_i hs; exact ⟨by simp [hs.1], by simp, rfl⟩
    · cases h
  | work l =>
    simp only [sCall] at h
    split at h
    · cases h; rename_i hs; exact ⟨by simp, by simp, rfl⟩
    · cases h
  | allEnd =>
    simp only [sCall] at h
    split at h
    · cases h; rename_i hs; exact ⟨by simp [hs.1], by simp, rfl⟩
    · cases h
  | finish fs fd t n =>
    simp only [sCall] at h
    split at h
    · cases h; exact ⟨by simp, by simp, rfl⟩
    · cases h; exact ⟨by simp, by simp, rfl⟩
    · rename_i h1 h2
      split at h
      · cases h
      · split at h
        · cases h
        · cases h; exact ⟨by simp; exact h1, by simp, rfl⟩
  | report =>
    simp only [sCall] at h
    cases h
    exact ⟨by simp, by simp, rfl⟩

theorem sCalls_cons {o o' : SObj} {e : SCall} {es : List SCall} {outs : List ApiOut}
    (h : sCalls o (e :: es) = .ok (some (o', outs))) :
    ∃ o1 out outs', sCall o e = .ok (some (o1, out)) ∧ sCalls o1 es = .ok (some (o', outs')) ∧ outs = out :: outs' := by
  simp only [sCalls] at h
  split at h
  · cases h
  · cases h
  · rename_i o1 out he
    split at h
    · cases h
    · cases h
    · rename_i o2 outs' hs
      cases h
      exact ⟨o1, out, outs', he, hs, rfl⟩

/-- **C86**: no order of calls on a sender ends the program, as long as `finish` is not called while
`transferAsync` is at work.  (Missing: just that, see `C86_race_violated`.) -/
theorem C86_sender_no_crash_partial (n : Nat) (es : List SCall) (hq : FinishApart es) (f : Fault) : sCalls { n := n } es ≠ .error f := by
  have gen : ∀ (es : List SCall) (o : SObj),
      (∀ es1 fs fd t n es2, es = es1 ++ .finish fs fd t n :: es2 → (o.status ≠ .notStarted ∨ SCall.start ∈ es1) →
        (o.made = true ∨ SCall.started ∈ es1)) → sCalls o es ≠ .error f := by
    intro es
    induction es with
    | nil => intro o _ h; simp [sCalls] at h
    | cons e es ih =>
      intro o ho h
      simp only [sCalls] at h
      split at h
      · rename_i f' he
        cases e with
        | finish fs fd t n =>
          have := ho [] fs fd t n es rfl
          simp only [List.not_mem_nil, or_false] at this
          simp only [sCall] at he
          split at he
          · cases he
          · cases he
          · rename_i h1 h2
            split at he
            · rename_i hm
              rw [this (by simpa using h1)] at hm
              cases hm
            · split at he <;> cases he
        | start => simp only [sCall] at he; split at he <;> cases he
        | started => simp only [sCall] at he; split at he <;> cases he
        | work l => simp only [sCall] at he; split at he <;> cases he
        | allEnd => simp only [sCall] at he; split at he <;> cases he
        | report => simp only [sCall] at he; cases he
      · cases h
      · rename_i o1 out he
        obtain ⟨g1, g2, -⟩ := sCall_flags he
        split at h
        · rename_i f' hs
          cases h
          refine ih o1 ?_ hs
          intro es1 fs fd t n es2 heq hst
          have := ho (e :: es1) fs fd t n es2 (by rw [heq]; rfl) (by
            rcases hst with hst | hst
            · rcases g1.1 hst with x | x
              · exact .inl x
              · exact .inr (by simp [x])
            · exact .inr (by simp [hst]))
          rcases this with x | x
          · exact .inl (g2 (.inl x))
          · rcases List.mem_cons.mp x with x | x
            · exact .inl (g2 (.inr x.symm))
            · exact .inr x
        · cases h
        · cases h
  refine gen es { n := n } ?_
  intro es1 fs fd t n es2 heq hst
  rcases hst with h | h
  · exact absurd rfl h
  · exact .inr (hq es1 fs fd t n es2 heq h)

/-- **C86**: a transfer is started once: after a first `transferAsync` every other one is refused. -/
theorem C86_one_start (n : Nat) (es : List SCall) (o o' : SObj) (outs : List ApiOut) (out : ApiOut)
    (h : sCalls { n := n } es = .ok (some (o, outs))) (hs : SCall.start ∈ es) (h2 : sCall o .start = .ok (some (o', out))) :
    out = .code eALREADY_EXISTS ∧ o' = o := by
  have gen : ∀ (es : List SCall) (o1 o : SObj) (outs : List ApiOut), sCalls o1 es = .ok (some (o, outs)) →
      (o1.status ≠ .notStarted ∨ SCall.start ∈ es) → o.status ≠ .notStarted := by
    intro es
    induction es with
    | nil => intro o1 o outs h hs; simp only [sCalls] at h; cases h; simpa using hs
    | cons e es ih =>
      intro o1 o outs h hs
      obtain ⟨o2, out, outs', h1, h2, rfl⟩ := sCalls_cons h
      obtain ⟨g1, -, -⟩ := sCall_flags h1
      refine ih o2 o outs' h2 ?_
      rcases hs with hs | hs
      · exact .inl (g1.2 (.inl hs))
      · rcases List.mem_cons.mp hs with x | x
        · exact .inl (g1.2 (.inr x.symm))
        · exact .inr x
  have := gen es _ o outs h (.inr hs)
  simp only [sCall] at h2
  rw [if_pos this] at h2
  cases h2
  exact ⟨rfl, rfl⟩

/-- **C86**: without a call of `transferAsync` every report says ERROR. -/
theorem C86_sender_not_started (n : Nat) (es : List SCall) (o : SObj) (outs : List ApiOut)
    (h : sCalls { n := n } es = .ok (some (o, outs))) (hs : SCall.start ∉ es) (c : ErrCode) (hc : ApiOut.report c ∈ outs) : c = eERROR := by
  have gen : ∀ (es : List SCall) (o1 o : SObj) (outs : List ApiOut), sCalls o1 es = .ok (some (o, outs)) →
      o1.status = .notStarted → o1.stats = [] → SCall.start ∉ es → ApiOut.report c ∈ outs → c = eERROR := by
    intro es
    induction es with
    | nil => intro o1 o outs h _ _ _ hc; simp only [sCalls] at h; cases h; cases hc
    | cons e es ih =>
      intro o1 o outs h hn hst hs hc
      obtain ⟨o2, out, outs', h1, h2, rfl⟩ := sCalls_cons h
      have hrep : o1.getReport = eERROR := by
        unfold SObj.getReport
        simp only [hst]
        rw [if_pos ⟨hn, by decide⟩]
      have key : o2 = o1 ∧ (∀ c, out = .report c → c = eERROR) := by
        cases e with
        | start => simp at hs
        | started => simp [sCall, hn] at h1
        | work l => simp [sCall, hn] at h1
        | allEnd => simp [sCall, hn] at h1
        | finish fs fd t n =>
          simp only [sCall, hn] at h1
          cases h1
          refine ⟨rfl, fun c hc => ?_⟩
          cases hc; exact hrep
        | report =>
          simp only [sCall] at h1
          cases h1
          refine ⟨rfl, fun c hc => ?_⟩
          cases hc; exact hrep
      obtain ⟨rfl, k2⟩ := key
      rcases List.mem_cons.mp hc with x | x
      · exact k2 c x.symm
      · exact ih o2 o outs' h2 hn hst (fun h => hs (by simp [h])) x
  exact gen es _ o outs h rfl rfl hs hc

/-- A sequence of calls that meets the conditions, with its results. -/
example : FinishApart [.report, .start, .started, .start, .work [{ effDataBytes := 5 }], .allEnd, .finish [] [] 5 1, .finish [] [] 5 1] ∧
    (match sCalls { n := 1 } [.report, .start, .started, .start, .work [{ effDataBytes := 5 }], .allEnd, .finish [] [] 5 1, .finish [] [] 5 1] with
    | .ok (some (_, outs)) => decide (outs = [.report eERROR, .nothing, .code eOK, .code eALREADY_EXISTS, .nothing, .nothing, .report eOK, .report eOK])
    | _ => false) = true := by
  refine ⟨?_, by decide +kernel⟩
  intro es1 fs fd t n es2 h _
  match es1, h with
  | [], h => simp at h
  | [_], h => simp at h
  | [_, _], h => simp at h
  | _ :: _ :: c :: _, h =>
    simp only [List.cons_append, List.cons.injEq] at h
    simp [← h.2.2.1]

/-- **C86** is violated: `finish`, which is said to be safe with threads, ends the program (or does
worse) when another thread has just called `transferAsync`. -/
theorem C86_race_violated (n : Nat) (fs : List TStats) (fd : List Bytes) (t m : Int) :
    sCalls { n := n } [.start, .finish fs fd t m] = .error .ub := rfl

/-- **C86** is violated: `finish`, which can be called several times, does not say the same the second
time.  A transfer that succeeded though one connection failed has failed the second time; a transfer
that failed because a file could not be read has succeeded the second time. -/
theorem C86_again_violated :
    (∃ o, sCalls { n := 2 } [.start, .started, .work [{ effDataBytes := 5 }, { localErr := eSOCKET_WRITE_ERROR }], .allEnd,
        .finish [] [] 5 1, .finish [] [] 5 1] =
      .ok (some (o, [.nothing, .code eOK, .nothing, .nothing, .report eOK, .report eSOCKET_WRITE_ERROR]))) ∧
    (∃ o, sCalls { n := 1 } [.start, .started, .work [{ effDataBytes := 5 }], .allEnd,
        .finish [{ id := [97], localErr := eBYTE_SOURCE_READ_ERROR }] [] 12 2, .finish [{ id := [97], localErr := eBYTE_SOURCE_READ_ERROR }] [] 12 2] =
      .ok (some (o, [.nothing, .code eOK, .nothing, .nothing, .report eBYTE_SOURCE_READ_ERROR, .report eOK]))) :=
  ⟨⟨{ n := 2, status := .joined, made := true, stats := [{ effDataBytes := 5 }, { localErr := eSOCKET_WRITE_ERROR }] }, by decide +kernel⟩,
   ⟨{ n := 1, status := .joined, made := true, stats := [{ effDataBytes := 5 }] }, by decide +kernel⟩⟩

/-! ## Receiver -/

theorem rCalls_cons {o o' : RObj} {e : RCall} {es : List RCall} {outs : List ApiOut}
    (h : rCalls o (e :: es) = .ok (some (o', outs))) :
    ∃ o1 out outs', rCall o e = .ok (some (o1, out)) ∧ rCalls o1 es = .ok (some (o', outs')) ∧ outs = out :: outs' := by
  simp only [rCalls] at h
  split at h
  · cases h
  · cases h
  · rename_i o1 out he
    split at h
    · cases h
    · cases h
    · rename_i o2 outs' hs
      cases h
      exact ⟨o1, out, outs', he, hs, rfl⟩

/-- What each event does to the state. -/
theorem rCall_spec {o o' : RObj} {e : RCall} {out : ApiOut} (h : rCall o e = .ok (some (o', out))) :
    o'.resume = o.resume ∧ (o.log = true → o'.log = true) ∧ (∀ k, e = .init (some k) → o'.log = true) ∧
    (o'.status = .notStarted ↔ o.status = .notStarted ∧ e ≠ .start) ∧
    (o.status = .joined → o' = o) ∧
    ((∀ k, e ≠ .init (some k)) → o'.n = o.n) ∧
    (o.stats.length = o.n → o'.stats.length = o'.n) ∧
    (∀ c, out = .report c → (o' = o ∨ o'.status = .joined) ∧ c = o'.getReport) := by
  cases e with
  | init k =>
    cases k with
    | none =>
      simp only [rCall] at h
      split at h
      · cases h; simp
      · cases h
    | some k =>
      simp only [rCall] at h
      split at h
      · cases h; rename_i hs; simp [hs]
      · cases h
  | start =>
    simp only [rCall] at h
    split at h
    · cases h
    · cases h; rename_i hs
      have hs : o.status = .notStarted := by simpa using hs
      simp [hs]
  | daemon =>
    simp only [rCall] at h
    split at h
    · cases h
    · split at h <;> cases h
  | work l =>
    simp only [rCall] at h
    split at h
    · cases h; rename_i hs; simp [hs]
    · cases h
  | allEnd =>
    simp only [rCall] at h
    split at h
    · cases h; rename_i hs; simp [hs]
    · cases h
  | finish =>
    simp only [rCall] at h
    split at h
    · cases h; simp
    · cases h; simp
    · rename_i h1 h2
      split at h
      · cases h
      · split at h
        · cases h
        · cases h
          refine ⟨rfl, fun x => x, by simp, by simp; exact h1, fun x => absurd x h2, by simp, fun x => x, ?_⟩
          intro c hc
          cases hc
          exact ⟨.inr rfl, rfl⟩

/-- **C86**: a receiver that has been set up can be used in any way that calls `transferAsync` at most
once and not `runForever`: the program goes on. -/
theorem C86_receiver_no_crash_partial (resume : Bool) (k : Nat) (es : List RCall) (h1 : es.count .start ≤ 1) (hd : RCall.daemon ∉ es)
    (f : Fault) : rCalls { resume := resume } (.init (some k) :: es) ≠ .error f := by
  have gen : ∀ (es : List RCall) (o : RObj), o.log = true → (o.status ≠ .notStarted → RCall.start ∉ es) → es.count .start ≤ 1 →
      RCall.daemon ∉ es → rCalls o es ≠ .error f := by
    intro es
    induction es with
    | nil => intro o _ _ _ _ h; simp [rCalls] at h
    | cons e es ih =>
      intro o hl hs hc hd h
      simp only [rCalls] at h
      split at h
      · rename_i f' he
        cases e with
        | init k => cases k <;> (simp only [rCall] at he; split at he <;> cases he)
        | start =>
          simp only [rCall] at he
          split at he
          · rename_i hx; exact hs hx (by simp)
          · cases he
        | daemon => simp at hd
        | work l => simp only [rCall] at he; split at he <;> cases he
        | allEnd => simp only [rCall] at he; split at he <;> cases he
        | finish =>
          simp only [rCall] at he
          split at he
          · cases he
          · cases he
          · split at he
            · cases he
            · split at he
              · rename_i hx; rw [hl] at hx; exact absurd hx.2 (by decide)
              · cases he
      · cases h
      · rename_i o1 out he
        obtain ⟨-, g2, -, g4, -⟩ := rCall_spec he
        split at h
        · rename_i f' hs2
          cases h
          have hc' : es.count .start ≤ 1 := Nat.le_trans (List.count_le_count_cons) hc
          refine ih o1 (g2 hl) ?_ hc' (fun x => hd (by simp [x])) hs2
          intro hne hmem
          by_cases hes : e = .start
          · subst hes
            rw [List.count_cons_self] at hc
            have := List.count_pos_iff.mpr hmem
            omega
          · have : o.status ≠ .notStarted := fun hx => hne (g4.2 ⟨hx, hes⟩)
            exact hs this (by simp [hmem])
        · cases h
        · cases h
  intro h
  simp only [rCalls, rCall, if_true] at h
  split at h
  · rename_i f' hf
    cases h
    exact gen es _ rfl (fun x => absurd rfl x) h1 hd hf
  · cases h
  · cases h

/-- **C86**: once `finish` has ended a transfer, each further `finish` says the same. -/
theorem C86_receiver_again (o o1 o2 : RObj) (es : List RCall) (outs : List ApiOut) (c c' : ErrCode)
    (hs : o.status ≠ .notStarted) (h : rCall o .finish = .ok (some (o1, .report c))) (h2 : rCalls o1 es = .ok (some (o2, outs)))
    (hc : ApiOut.report c' ∈ outs) : c' = c := by
  have hj : o1.status = .joined ∧ c = o1.getReport := by
    obtain ⟨-, -, -, -, -, -, -, g⟩ := rCall_spec h
    refine ⟨?_, (g c rfl).2⟩
    simp only [rCall] at h
    split at h
    · rename_i hx; exact absurd hx hs
    · rename_i hx; cases h; exact hx
    · split at h
      · cases h
      · split at h
        · cases h
        · cases h; rfl
  obtain ⟨hj, rfl⟩ := hj
  have gen : ∀ (es : List RCall) (outs : List ApiOut), rCalls o1 es = .ok (some (o2, outs)) → ApiOut.report c' ∈ outs → c' = o1.getReport := by
    intro es
    induction es with
    | nil => intro outs h hc; simp only [rCalls] at h; cases h; cases hc
    | cons e es ih =>
      intro outs h hc
      obtain ⟨o3, out, outs', h1, h3, rfl⟩ := rCalls_cons h
      obtain ⟨-, -, -, -, g5, -, -, g8⟩ := rCall_spec h1
      have := g5 hj
      subst this
      rcases List.mem_cons.mp hc with x | x
      · exact (g8 c' x.symm).2
      · exact ih outs' h3 x
  exact gen es outs h2 hc

/-- **C86**: a report says OK only if `init` made threads, `transferAsync` was called, some thread was
told how many blocks there are and just as many were received. -/
theorem C86_receiver_success (resume : Bool) (es : List RCall) (o o' : RObj) (outs : List ApiOut)
    (h : rCalls { resume := resume } es = .ok (some (o, outs))) (h2 : rCall o .finish = .ok (some (o', .report eOK))) :
    RCall.start ∈ es ∧ (∃ k, RCall.init (some k) ∈ es) ∧ o'.stats.length = o'.n ∧
      ∃ t ∈ o'.stats, t.numBlocksSend ≠ -1 ∧ t.numBlocksSend = (o'.stats.map (·.numBlocks)).sum := by
  have gen : ∀ (es : List RCall) (o1 o : RObj) (outs : List ApiOut), rCalls o1 es = .ok (some (o, outs)) → o1.stats.length = o1.n →
      o.stats.length = o.n ∧ (o.status ≠ .notStarted → o1.status ≠ .notStarted ∨ RCall.start ∈ es) ∧
      (0 < o.n → 0 < o1.n ∨ ∃ k, RCall.init (some k) ∈ es) := by
    intro es
    induction es with
    | nil => intro o1 o outs h hl; simp only [rCalls] at h; cases h; exact ⟨hl, fun x => .inl x, fun x => .inl x⟩
    | cons e es ih =>
      intro o1 o outs h hl
      obtain ⟨o3, out, outs', h1, h2, rfl⟩ := rCalls_cons h
      obtain ⟨-, -, -, g4, -, g6, g7, -⟩ := rCall_spec h1
      obtain ⟨i1, i2, i3⟩ := ih o3 o outs' h2 (g7 hl)
      refine ⟨i1, fun x => ?_, fun x => ?_⟩
      · rcases i2 x with y | y
        · by_cases hes : e = .start
          · exact .inr (by simp [hes])
          · exact .inl fun z => y (g4.2 ⟨z, hes⟩)
        · exact .inr (by simp [y])
      · rcases i3 x with y | ⟨k, y⟩
        · by_cases hes : ∃ k, e = .init (some k)
          · obtain ⟨k, rfl⟩ := hes
            exact .inr ⟨k, by simp⟩
          · rw [g6 fun k hk => hes ⟨k, hk⟩] at y
            exact .inl y
        · exact .inr ⟨k, by simp [y]⟩
  obtain ⟨i1, i2, i3⟩ := gen es _ o outs h rfl
  obtain ⟨-, -, -, g4, -, g6, g7, g8⟩ := rCall_spec h2
  obtain ⟨-, hrep⟩ := g8 eOK rfl
  have hns : o'.status ≠ .notStarted := by
    intro hx
    unfold RObj.getReport at hrep
    simp only [hx, true_and] at hrep
    split at hrep
    · exact absurd hrep (by decide)
    · rename_i hy; exact hy hrep.symm
  have hok : (receiverReport o'.stats).errorCode = eOK := by
    unfold RObj.getReport at hrep
    simp only [hns, false_and, if_false] at hrep
    exact hrep.symm
  obtain ⟨⟨t, ht, a, b⟩, -, -⟩ := C23_success_means_received o'.stats hok
  have hn : o'.n = o.n := g6 (by simp)
  have hpos : 0 < o.n := by
    rw [← hn, ← g7 i1]
    exact List.length_pos_of_mem ht
  refine ⟨?_, ?_, g7 i1, t, ht, a, b⟩
  · have : o.status ≠ .notStarted := fun hx => hns (g4.2 ⟨hx, by simp⟩)
    rcases i2 this with x | x
    · exact absurd rfl x
    · exact x
  · rcases i3 hpos with x | x
    · exact absurd x (by simp)
    · exact x

/-- One receiver, used as intended. -/
example : (match rCalls {} [.init (some 1), .finish, .start, .work [{ numBlocksSend := 2, numBlocks := 2 }], .allEnd, .finish, .finish] with
    | .ok (some (_, outs)) => decide (outs = [.nothing, .report eERROR, .code eOK, .nothing, .nothing, .report eOK, .report eOK])
    | _ => false) = true := by decide +kernel

/-- **C86** is violated: a second `transferAsync` ends the program (the sender refuses it). -/
theorem C86_receiver_twice_violated (resume : Bool) (k : Nat) :
    rCalls { resume := resume } [.init (some k), .start, .start] = .error .check := rfl

/-- **C86** is violated: a receiver whose request was refused and that is used nevertheless: with
resumption `finish` uses a log manager that does not exist, `runForever` a controller. -/
theorem C86_refused_violated :
    rCalls { resume := true } [.init none, .start, .finish] = .error .ub ∧ rCalls {} [.init none, .daemon] = .error .ub := by decide +kernel

theorem sCall_phase {o o' : SObj} {e : SCall} {out : ApiOut} (h : sCall o e = .ok (some (o', out))) (hn : 0 < o.n) :
    (o'.made = true ↔ o.made = true ∨ e = .started) ∧
    (o'.status = .ongoing ↔ (o.status = .ongoing ∨ (o.status = .notStarted ∧ e = .start)) ∧ e ≠ .allEnd) ∧
    (o'.status = .notStarted ↔ o.status = .notStarted ∧ e ≠ .start) := by
  cases e with
  | start =>
    simp only [sCall] at h
    split at h
    · cases h; rename_i hs; simp [hs]
    · cases h; rename_i hs; simp at hs; simp [hs]
  | started =>
    simp only [sCall] at h
    split at h
    · cases h; rename_i hs; simp [hs.1]
    · cases h
  | work l =>
    simp only [sCall] at h
    split at h
    · cases h; rename_i hs; simp [hs.1]
    · cases h
  | allEnd =>
    simp only [sCall] at h
    split at h
    · cases h; rename_i hs; simp [hs.1, hs.2.1]
    · cases h
  | finish fs fd t m =>
    simp only [sCall] at h
    split at h
    · cases h; rename_i hs; simp [hs]
    · cases h; rename_i hs; simp [hs]
    · rename_i h1 h2
      split at h
      · cases h
      · split at h
        · cases h
        · cases h
          rename_i hm hw
          have : o.status ≠ .ongoing := fun hx => hw ⟨hx, hn⟩
          have h1' : o.status ≠ .notStarted := fun hx => h1 hx
          simp [this, h1']
  | report => simp only [sCall] at h; cases h; simp

/-- `finish` of a sender waits as long as a thread of the transfer runs, and no longer. -/
theorem C86_sender_finish_waits (n : Nat) (hn : 0 < n) (es : List SCall) (o : SObj) (outs : List ApiOut)
    (h : sCalls { n := n } es = .ok (some (o, outs))) (fs : List TStats) (fd : List Bytes) (t m : Int) :
    sCall o (.finish fs fd t m) = .ok none ↔ SCall.started ∈ es ∧ SCall.allEnd ∉ es := by
  have gen : ∀ (es : List SCall) (o1 o : SObj) (outs : List ApiOut), sCalls o1 es = .ok (some (o, outs)) → 0 < o1.n →
      (o1.made = true → o1.status ≠ .notStarted) →
      0 < o.n ∧ (o.made = true → o.status ≠ .notStarted) ∧ (o.made = true ↔ o1.made = true ∨ SCall.started ∈ es) ∧
      (o.status = .ongoing ↔ (o1.status = .ongoing ∨ (o1.status = .notStarted ∧ SCall.start ∈ es)) ∧ SCall.allEnd ∉ es) ∧
      (SCall.started ∈ es → o1.status = .ongoing ∨ (o1.status = .notStarted ∧ SCall.start ∈ es)) := by
    intro es
    induction es with
    | nil => intro o1 o outs h hn hm; simp only [sCalls] at h; cases h; simpa using ⟨hn, hm⟩
    | cons e es ih =>
      intro o1 o outs h hn hm
      obtain ⟨o2, out, outs', h1, h2, -⟩ := sCalls_cons h
      obtain ⟨p1, p2, p3⟩ := sCall_phase h1 hn
      obtain ⟨-, -, hn2⟩ := sCall_flags h1
      have hst : e = .started → o1.status = .ongoing := by
        rintro rfl
        simp only [sCall] at h1
        split at h1
        · rename_i hx; exact hx.1
        · cases h1
      have hm2 : o2.made = true → o2.status ≠ .notStarted := by
        intro hx hy
        obtain ⟨hy, -⟩ := p3.1 hy
        rcases p1.1 hx with hx | hx
        · exact hm hx hy
        · rw [hst hx] at hy; cases hy
      obtain ⟨k0, k1, k2, k3, k4⟩ := ih o2 o outs' h2 (by omega) hm2
      refine ⟨k0, k1, ?_, ?_, ?_⟩
      · rw [k2, p1, List.mem_cons, or_assoc, @eq_comm _ e]
      · rw [k3, p2, p3, List.mem_cons, List.mem_cons]
        by_cases ha : SCall.allEnd = e
        · subst ha
          simp only [ne_eq, not_true_eq_false, and_false, false_or, reduceCtorEq, not_false_eq_true, and_true, true_or, not_true_eq_false, and_false, iff_false]
          rintro ⟨⟨hx, -⟩, -⟩
          simp only [sCall] at h1
          split at h1
          · rename_i hy; rw [hx] at hy; cases hy.1
          · cases h1
        · by_cases hs : SCall.start = e
          · subst hs; simp
          · have ha' : e ≠ .allEnd := fun h => ha h.symm
            have hs' : e ≠ .start := fun h => hs h.symm
            simp [ha, hs, ha', hs']
      · intro hin
        rw [List.mem_cons] at hin
        rcases hin with hin | hin
        · exact Or.inl (hst hin.symm)
        · rcases k4 hin with k | ⟨k, k'⟩
          · rcases (p2.1 k).1 with k | ⟨k, k'⟩
            · exact Or.inl k
            · exact Or.inr ⟨k, by simp [k']⟩
          · exact Or.inr ⟨(p3.1 k).1, by simp [k']⟩
  obtain ⟨k0, k1, k2, k3, k4⟩ := gen es _ _ _ h hn (by simp)
  simp only [reduceCtorEq, false_or, true_and, Bool.false_eq_true] at k2 k3 k4
  simp only [sCall]
  constructor
  · intro hw
    split at hw
    · cases hw
    · cases hw
    · split at hw
      · cases hw
      · rename_i hmd
        split at hw
        · rename_i hc
          exact ⟨k2.1 (by simpa using hmd), (k3.1 hc.1).2⟩
        · cases hw
  · rintro ⟨a1, a2⟩
    have hon := k3.2 ⟨k4 a1, a2⟩
    have hmd := k2.2 a1
    simp [hon, hmd, k0]

/-- Both happen. -/
example : (∃ o outs, sCalls { n := 1 } [.start, .started] = .ok (some (o, outs))) ∧
    ∃ o outs, sCalls { n := 1 } [.start, .started, .allEnd] = .ok (some (o, outs)) :=
  ⟨⟨_, _, rfl⟩, _, _, rfl⟩

/-- The same for a receiver with threads. -/
theorem C86_receiver_finish_waits (resume : Bool) (es : List RCall) (o : RObj) (outs : List ApiOut)
    (h : rCalls { resume := resume } es = .ok (some (o, outs))) (hn : 0 < o.n) :
    rCall o .finish = .ok none ↔ RCall.start ∈ es ∧ RCall.allEnd ∉ es := by
  have gen : ∀ (es : List RCall) (o1 o : RObj) (outs : List ApiOut), rCalls o1 es = .ok (some (o, outs)) → 0 < o.n →
      (o.status = .ongoing ↔ ((o1.status = .ongoing) ∨ (o1.status = .notStarted ∧ RCall.start ∈ es)) ∧ RCall.allEnd ∉ es) := by
    intro es
    induction es with
    | nil => intro o1 o outs h _; simp only [rCalls] at h; cases h; simp
    | cons e es ih =>
      intro o1 o outs h hn
      obtain ⟨o2, out, outs', h1, h2, -⟩ := rCalls_cons h
      have k := ih o2 o outs' h2 hn
      have hstuck : ∀ (es : List RCall) (o2 o : RObj) (outs : List ApiOut), rCalls o2 es = .ok (some (o, outs)) →
          o2.status ≠ .notStarted → o.n = o2.n := by
        intro es
        induction es with
        | nil => intro o2 o outs h _; simp only [rCalls] at h; cases h; rfl
        | cons e es ih =>
          intro o1 o outs h hs
          obtain ⟨o2, out, outs', h1, h2, -⟩ := rCalls_cons h
          obtain ⟨-, -, -, p4, -, p6, -, -⟩ := rCall_spec h1
          have hi : ∀ k, e ≠ .init (some k) := by
            rintro k rfl
            simp only [rCall] at h1
            rw [if_neg hs] at h1; cases h1
          rw [ih o2 o outs' h2 (fun hx => hs (p4.1 hx).1), p6 hi]
      rw [k]
      cases e with
      | init k =>
        have : o2.status = o1.status := by
          cases k with
          | none => simp only [rCall] at h1; split at h1 <;> cases h1; rfl
          | some k => simp only [rCall] at h1; split at h1 <;> cases h1; rfl
        rw [this]; simp
      | start =>
        simp only [rCall] at h1
        split at h1
        · cases h1
        · rename_i hs
          cases h1
          simp at hs
          simp [hs]
      | daemon =>
        simp only [rCall] at h1
        split at h1
        · cases h1
        · split at h1 <;> cases h1
      | work l =>
        simp only [rCall] at h1
        split at h1
        · cases h1; simp
        · cases h1
      | allEnd =>
        simp only [rCall] at h1
        split at h1
        · rename_i hs; cases h1; simp
        · cases h1
      | finish =>
        simp only [rCall] at h1
        split at h1
        · cases h1; simp
        · cases h1; simp
        · rename_i hx hy
          split at h1
          · cases h1
          · rename_i hw
            split at h1
            · cases h1
            · cases h1
              have hnn := hstuck es _ o outs' h2 (by simp)
              have hng : o1.status ≠ .ongoing := fun hc => hw ⟨hc, by simp only at hnn; omega⟩
              have hx' : o1.status ≠ .notStarted := fun hc => hx hc
              simp [hng, hx']
  have k := gen es _ _ _ h hn
  simp only [reduceCtorEq, false_or, true_and] at k
  rw [← k]
  simp only [rCall]
  constructor
  · intro hw
    split at hw
    · cases hw
    · cases hw
    · split at hw
      · rename_i hc; exact hc.1
      · split at hw <;> cases hw
  · intro hon
    simp [hon, hn]

/-- Both happen. -/
example : (∃ o outs, rCalls {} [.init (some 2), .start] = .ok (some (o, outs)) ∧ 0 < o.n) ∧
    ∃ o outs, rCalls {} [.init (some 2), .start, .allEnd] = .ok (some (o, outs)) ∧ 0 < o.n :=
  ⟨⟨_, _, rfl, by decide⟩, _, _, rfl, by decide⟩

end Wdt
