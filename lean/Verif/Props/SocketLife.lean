import Verif.Lemmas.SocketLife
/-
C111: what a socket does over its whole life when the network or OpenSSL fail at any point.
-/
namespace Wdt

/-- The order in which the threads call: nothing but `close` on a socket without connection, a
connection is closed before the next one (SenderThread.cpp:110-130, ReceiverThread.cpp:142, 204),
at least one byte is read or written, nothing is written after `shutdownWrites`
(SenderThread.cpp:767-781) and nothing read after `expectEndOfStream` (SenderThread.cpp:770-781,
ReceiverThread.cpp:895-905).  The state: no connection, or whether reading and writing have been
ended. -/
def SlOrder : Option (Bool × Bool) → List SlOp → Prop
  | _, [] => True
  | none, .connect fd :: l => 0 ≤ fd ∧ SlOrder (some (false, false)) l
  | none, .close _ :: l => SlOrder none l
  | none, _ :: _ => False
  | some _, .connect _ :: _ => False
  | some (r, w), .read n :: l => 0 < n ∧ r = false ∧ SlOrder (some (r, w)) l
  | some (r, w), .write n :: l => 0 < n ∧ w = false ∧ SlOrder (some (r, w)) l
  | some (r, _), .shutdownWrites :: l => SlOrder (some (r, true)) l
  | some (_, w), .expectEndOfStream :: l => SlOrder (some (true, w)) l
  | some _, .close _ :: l => SlOrder none l

/-- the phase after the calls -/
def slPhase : Option (Bool × Bool) → SlOp → Option (Bool × Bool)
  | none, .connect _ => some (false, false)
  | none, _ => none
  | some (r, _), .shutdownWrites => some (r, true)
  | some (_, w), .expectEndOfStream => some (true, w)
  | some _, .close _ => none
  | some p, _ => some p

/-- the state fits the phase -/
structure SlFits (ph : Option (Bool × Bool)) (s : SlSock) : Prop where
  r : SlRInv s
  w : SlWInv s
  phase : match ph with
    | none => slReset s = s
    | some (a, b) => 0 ≤ s.fd ∧ s.rFin = a ∧ s.wFin = b

theorem slFinReads_post (E : Nat → SlEv) (t : Bool) (s : SlSock) (h : SlRInv s) :
    SlOk (slFinReads E t s) (fun f => SlRInv f.2 ∧ f.2 = { s with k := f.2.k, rErr := f.2.rErr, decOn := false, rFin := true }) := by
  have key : ∀ k' e', SlRInv { s with k := k', rErr := e', decOn := false, rFin := true } := fun k' e' =>
    ⟨h.sec, fun _ => rfl, fun h' => by simp at h', h.tag, h.tot, fun h' => by simp at h'⟩
  have fin : ∀ (b : Bool) (s1 : SlSock), s1 = { s with k := s1.k, rErr := s1.rErr } →
      { (slDecFinish E b s1).2 with rFin := true } = { s with k := (slDecFinish E b s1).2.k, rErr := (slDecFinish E b s1).2.rErr, decOn := false, rFin := true } := by
    intro b s1 e
    unfold slDecFinish
    split
    · dsimp only; rw [e]
    · rename_i hd
      have : s1.decOn = false := by simpa using hd
      dsimp only
      rw [← this, e]
  unfold slFinReads
  split
  · rename_i hc
    have hT : SlOk (slReadTag E s) (fun t => t.2 = { s with k := t.2.k, rErr := t.2.rErr }) := by
      have h1 := (slRead_spec E (slTagLen s.enc) s).1
      unfold slReadTag
      rw [if_neg hc.1]
      dsimp only
      split
      · exact SlOk.pure (by dsimp only; rw [h1])
      · exact SlOk.pure (by dsimp only; rw [h1])
    refine SlOk.bind hT ?_
    rintro ⟨b, s1⟩ e
    dsimp only at e ⊢
    refine SlOk.pure ?_
    dsimp only
    rw [fin b s1 e]
    exact ⟨key _ _, rfl⟩
  · dsimp only
    refine SlOk.pure ?_
    dsimp only
    rw [fin false s rfl]
    exact ⟨key _ _, rfl⟩

theorem slFinWrites_post (E : Nat → SlEv) (t : Bool) (s : SlSock) (h : SlWInv s) :
    SlWInv (slFinWrites E t s).2 ∧
    (slFinWrites E t s).2 = { s with k := (slFinWrites E t s).2.k, wErr := (slFinWrites E t s).2.wErr, encOn := false, wFin := true } := by
  have key : ∀ k' e', SlWInv { s with k := k', wErr := e', encOn := false, wFin := true } := fun k' e' =>
    ⟨h.tag, fun h' => by simp at h', h.tot, fun h' => by simp at h', fun h' => by simp at h'⟩
  have hE : (slEncFinish E s).2.2 = { s with k := (slEncFinish E s).2.2.k, encOn := false } := by
    unfold slEncFinish
    split
    · rfl
    · rename_i hd
      have : s.encOn = false := by simpa using hd
      dsimp only
      rw [← this]
  have hS : (slFinWrites E t s).2 = { s with k := (slFinWrites E t s).2.k, wErr := (slFinWrites E t s).2.wErr, encOn := false, wFin := true } := by
    unfold slFinWrites
    dsimp only
    split
    · have h1 := (slWrite_spec E kTagLen (slEncFinish E s).2.2 (by decide)).1
      dsimp only
      rw [h1, hE]
    · dsimp only
      rw [hE]
  refine ⟨?_, hS⟩
  rw [hS]
  exact key _ _

theorem slReset_fits (s : SlSock) (hr : SlRInv s) (hw : SlWInv s) : SlFits none (slReset s) :=
  ⟨⟨hr.sec, fun _ => rfl, fun h => by simp [slReset, slDecReset] at h, fun h => by simp [slReset, slDecReset, slEncReset] at h, Int.le_refl _,
      fun _ _ h => by simp [slReset, slDecReset, slEncReset] at h⟩,
    ⟨hw.tag, fun h => by simp [slReset, slDecReset, slEncReset] at h, Int.le_refl _, fun _ _ _ => rfl, fun _ _ h => by simp [slReset, slDecReset, slEncReset] at h⟩,
    rfl⟩

/-- what closing leaves -/
theorem slClose_post (E : Nat → SlEv) (t : Bool) (s : SlSock) (hr : SlRInv s) (hw : SlWInv s) (hfd : 0 ≤ s.fd) :
    SlOk (slClose E t s) (fun c => SlFits none c.2 ∧ ∃ k', c.2 = slReset { s with k := k' }) := by
  unfold slClose
  rw [if_neg (by omega)]
  -- the writing side
  have h1 : ∀ w : ErrCode × SlSock, (w = if s.wFin then (eOK, s) else slFinWrites E t s) →
      SlWInv w.2 ∧ SlRInv w.2 ∧ ∃ k' e' b b', w.2 = { s with k := k', wErr := e', encOn := b, wFin := b' } := by
    intro w hwe
    split at hwe
    · subst hwe
      exact ⟨hw, hr, s.k, s.wErr, s.encOn, s.wFin, rfl⟩
    · obtain ⟨a, b⟩ := slFinWrites_post E t s hw
      rw [hwe]
      refine ⟨a, ?_, _, _, _, _, b⟩
      rw [b]
      exact ⟨hr.sec, hr.off, hr.type, hr.tag, hr.tot, hr.on⟩
  obtain ⟨hw1, hr1, k1, e1, b1, b1', hs1⟩ := h1 _ rfl
  generalize (if s.wFin then (eOK, s) else slFinWrites E t s) = w at *
  have h2 : SlOk (if w.2.rFin then Except.ok (eOK, w.2) else slFinReads E t w.2) (fun r => SlRInv r.2 ∧ SlWInv r.2 ∧
      ∃ k' e' b b', r.2 = { w.2 with k := k', rErr := e', decOn := b, rFin := b' }) := by
    split
    · exact SlOk.pure ⟨hr1, hw1, w.2.k, w.2.rErr, w.2.decOn, w.2.rFin, rfl⟩
    · refine (slFinReads_post E t w.2 hr1).mono ?_
      rintro f ⟨a, b⟩
      refine ⟨a, ?_, _, _, _, _, b⟩
      rw [b]
      exact ⟨hw1.tag, hw1.type, hw1.tot, hw1.off, hw1.on⟩
  refine SlOk.bind h2 ?_
  rintro ⟨c, s2⟩ ⟨a1, a2, k2, e2, b2, b2', hs2⟩
  refine SlOk.pure ⟨slReset_fits _ ?_ ?_, s2.k + 1, ?_⟩
  · exact ⟨a1.sec, a1.off, a1.type, a1.tag, a1.tot, a1.on⟩
  · exact ⟨a2.tag, a2.type, a2.tot, a2.off, a2.on⟩
  · dsimp only at hs2 ⊢
    rw [hs2, hs1]
    rfl

theorem slStep_fits (E : Nat → SlEv) (op : SlOp) (ops : List SlOp) (ph : Option (Bool × Bool)) (s : SlSock)
    (ho : SlOrder ph (op :: ops)) (h : SlFits ph s) :
    SlOk (slStep E op s) (fun r => SlFits (slPhase ph op) r.2 ∧ SlOrder (slPhase ph op) ops) := by
  rcases ph with _ | ⟨a, b⟩
  · have hph : slReset s = s := h.phase
    have hfd : s.fd < 0 := by rw [← hph]; exact (show (-1 : Int) < 0 by decide)
    have hrf : s.rFin = false := by rw [← hph]; rfl
    have hwf : s.wFin = false := by rw [← hph]; rfl
    cases op with
    | connect fd =>
      obtain ⟨h0, ho⟩ := ho
      refine SlOk.pure ⟨⟨?_, ?_, h0, hrf, hwf⟩, ho⟩
      · exact ⟨h.r.sec, h.r.off, h.r.type, h.r.tag, h.r.tot, h.r.on⟩
      · exact ⟨h.w.tag, h.w.type, h.w.tot, h.w.off, h.w.on⟩
    | close t =>
      have hc : slClose E t s = .ok (eOK, s) := by unfold slClose; rw [if_pos hfd]
      simp only [slStep, hc, bind, Except.bind]
      exact SlOk.pure ⟨h, ho⟩
    | read n => exact ho.elim
    | write n => exact ho.elim
    | shutdownWrites => exact ho.elim
    | expectEndOfStream => exact ho.elim
  · obtain ⟨hfd, hrf, hwf⟩ := h.phase
    cases op with
    | connect fd => exact ho.elim
    | read n =>
      obtain ⟨hn, ha, ho⟩ := ho
      refine (slReadOp_post E n s hn h.r (hrf.trans ha)).mono fun r hr => ⟨⟨hr.inv, h.w.rstep hr.step, ?_, ?_, ?_⟩, ho⟩
      · rw [hr.step.1]; exact hfd
      · rw [hr.step.1]; exact hrf
      · rw [hr.step.1]; exact hwf
    | write n =>
      obtain ⟨hn, hb, ho⟩ := ho
      refine (slWriteOp_post E n s hn h.w h.r (hwf.trans hb)).mono fun r hr => ⟨⟨h.r.wstep hr.step, hr.inv, ?_, ?_, ?_⟩, ho⟩
      · rw [hr.step]; exact hfd
      · rw [hr.step]; exact hrf
      · rw [hr.step]; exact hwf
    | shutdownWrites =>
      obtain ⟨i, e⟩ := slFinWrites_post E true s h.w
      refine SlOk.pure ⟨⟨?_, ?_, ?_, ?_, ?_⟩, ho⟩
      · dsimp only; rw [e]
        exact ⟨h.r.sec, h.r.off, h.r.type, h.r.tag, h.r.tot, h.r.on⟩
      · exact ⟨i.tag, i.type, i.tot, i.off, i.on⟩
      · dsimp only; rw [e]; exact hfd
      · dsimp only; rw [e]; exact hrf
      · dsimp only; rw [e]
    | expectEndOfStream =>
      refine SlOk.bind (slFinReads_post E true s h.r) ?_
      rintro ⟨c, s'⟩ ⟨i, e⟩
      dsimp only at i e
      refine SlOk.pure ⟨⟨i, ?_, ?_, ?_, ?_⟩, ho⟩
      · dsimp only; rw [e]
        exact ⟨h.w.tag, h.w.type, h.w.tot, h.w.off, h.w.on⟩
      · dsimp only; rw [e]; exact hfd
      · dsimp only; rw [e]
      · dsimp only; rw [e]; exact hwf
    | close t =>
      refine SlOk.bind (slClose_post E t s h.r h.w hfd) ?_
      rintro ⟨c, s'⟩ ⟨i, _⟩
      exact SlOk.pure ⟨i, ho⟩

theorem slRun_fits (E : Nat → SlEv) : ∀ (ops rest : List SlOp) (ph : Option (Bool × Bool)) (s : SlSock),
    SlOrder ph (ops ++ rest) → SlFits ph s →
    SlOk (slRun E ops s) (fun r => r.1.length = ops.length ∧ SlFits (ops.foldl slPhase ph) r.2 ∧ SlOrder (ops.foldl slPhase ph) rest) := by
  intro ops
  induction ops with
  | nil => intro rest ph s ho h; exact SlOk.pure ⟨rfl, h, ho⟩
  | cons op ops ih =>
    intro rest ph s ho h
    refine SlOk.bind (slStep_fits E op (ops ++ rest) ph s ho h) ?_
    rintro ⟨x, s'⟩ ⟨h1, h2⟩
    refine SlOk.bind (ih rest _ s' h2 h1) ?_
    rintro ⟨xs, s''⟩ ⟨h3, h4, h5⟩
    exact SlOk.pure ⟨by simp [h3], h4, h5⟩

theorem slNew_fits (enc : Int) (secret plain : Bool) (iv tag : Int) (hs : enc ≠ 0 → secret = true) :
    SlFits none (slNew enc secret plain iv tag) := by
  refine ⟨⟨hs, fun _ => rfl, fun h => by simp [slNew] at h, fun h => by simp [slNew] at h, Int.le_refl _, fun _ _ h => by simp [slNew] at h⟩,
    ⟨fun h _ => ?_, fun h => by simp [slNew] at h, Int.le_refl _, fun _ _ _ => rfl, fun _ _ h => by simp [slNew] at h⟩, rfl⟩
  by_cases he : enc = ENC_AES128_GCM
  · exact he
  · simp [slNew, he] at h

/-- C111: with any encryption (a secret being given), tag interval and IV change interval, whatever the
network and OpenSSL do, no call ends the process in a check, and every call returns. -/
theorem C111_no_check (E : Nat → SlEv) (enc : Int) (secret plain : Bool) (iv tag : Int) (hs : enc ≠ 0 → secret = true)
    (ops : List SlOp) (ho : SlOrder none ops) :
    ∃ rs s, slRun E ops (slNew enc secret plain iv tag) = .ok (rs, s) ∧ rs.length = ops.length := by
  obtain ⟨⟨rs, s⟩, h1, h2, _⟩ := slRun_fits E ops [] none _ (by rw [List.append_nil]; exact ho) (slNew_fits enc secret plain iv tag hs)
  exact ⟨rs, s, h1, h2⟩

/-- C111: the order is needed: a read after the end of the stream fails a check. -/
theorem C111_order_needed : ∃ E, slRun E [.connect 5, .read 1, .expectEndOfStream, .read 1]
    (slNew ENC_AES128_CTR true false 0 0) = .error .check :=
  ⟨fun _ => { n := 100 }, by decide +kernel⟩

theorem slRun_append (E : Nat → SlEv) : ∀ (a b : List SlOp) (s : SlSock),
    slRun E (a ++ b) s = (do let r ← slRun E a s; let q ← slRun E b r.2; .ok (r.1 ++ q.1, q.2)) := by
  intro a
  induction a with
  | nil => intro b s; simp only [List.nil_append, slRun, bind, Except.bind]; cases slRun E b s <;> rfl
  | cons op a ih =>
    intro b s
    simp only [List.cons_append, slRun, bind, Except.bind]
    cases slStep E op s with
    | error f => rfl
    | ok x =>
      dsimp only
      rw [ih]
      simp only [bind, Except.bind]
      cases slRun E a x.2 with
      | error f => rfl
      | ok y => dsimp only; cases slRun E b y.2 <;> rfl

/-- a read or a write -/
def SlOp.io : SlOp → Bool
  | .read _ => true
  | .write _ => true
  | _ => false

theorem read_stuck (E : Nat → SlEv) : ∀ (ops : List SlOp) (ph : Option (Bool × Bool)) (s : SlSock), SlOrder ph ops → SlFits ph s →
    s.rErr ≠ eOK → s.rErr ≠ eWDT_TIMEOUT → (∀ op ∈ ops, op.io) → ∀ rs s', slRun E ops s = .ok (rs, s') →
    (∀ (i : Nat) (m : Int), ops[i]? = some (.read m) → rs[i]? = some (-1)) ∧ ((∀ op ∈ ops, ∃ m, op = .read m) → s' = s) := by
  intro ops
  induction ops with
  | nil =>
    intro ph s _ _ _ _ _ rs s' h
    simp only [slRun, Except.ok.injEq, Prod.mk.injEq] at h
    exact ⟨fun i m h' => by simp at h', fun _ => h.2.symm⟩
  | cons op ops ih =>
    intro ph s ho hfit h1 h2 hio rs s' h
    obtain ⟨⟨x, s1⟩, e1, hf1, ho1⟩ := slStep_fits E op ops ph s ho hfit
    simp only [slRun, e1, bind, Except.bind] at h
    have hstep : (∃ m, op = .read m ∧ x = -1 ∧ s1 = s) ∨ ((∃ m, op = .write m) ∧ s1.rErr = s.rErr) := by
      have := hio op (by simp)
      cases op with
      | read m =>
        refine .inl ⟨m, rfl, ?_⟩
        have hn : 0 < m := by
          rcases ph with _ | ⟨a, b⟩
          · exact ho.elim
          · exact ho.1
        simp only [slStep, slReadOp] at e1
        rw [if_neg (by omega), if_pos ⟨h1, h2⟩] at e1
        simp only [Except.ok.injEq, Prod.mk.injEq] at e1
        exact ⟨e1.1.symm, e1.2.symm⟩
      | write m =>
        refine .inr ⟨⟨m, rfl⟩, ?_⟩
        rcases ph with _ | ⟨a, b⟩
        · exact ho.elim
        · obtain ⟨r, e, hp⟩ := slWriteOp_post E m s ho.1 hfit.w hfit.r (hfit.phase.2.2.trans ho.2.1)
          simp only [slStep] at e1
          rw [e] at e1
          cases e1
          have := hp.step
          dsimp only at this
          rw [this]
      | connect => cases this
      | shutdownWrites => cases this
      | expectEndOfStream => cases this
      | close => cases this
    have he : s1.rErr = s.rErr := by
      rcases hstep with ⟨_, _, _, h⟩ | ⟨_, h⟩
      · rw [h]
      · exact h
    rcases hr : slRun E ops s1 with f | ⟨ts, s2⟩
    · rw [hr] at h; cases h
    · rw [hr] at h
      simp only [Except.ok.injEq, Prod.mk.injEq] at h
      obtain ⟨rfl, rfl⟩ := h
      obtain ⟨i1, i2⟩ := ih _ s1 ho1 hf1 (by rw [he]; exact h1) (by rw [he]; exact h2) (fun o ho => hio o (by simp [ho])) ts s2 hr
      refine ⟨fun i m hi => ?_, fun hall => ?_⟩
      · cases i with
        | zero =>
          simp only [List.getElem?_cons_zero, Option.some.injEq] at hi ⊢
          rcases hstep with ⟨_, _, h, _⟩ | ⟨⟨_, h⟩, _⟩
          · exact h
          · rw [hi] at h; cases h
        | succ i =>
          simp only [List.getElem?_cons_succ] at hi ⊢
          exact i1 i m hi
      · rw [i2 (fun o ho => hall o (by simp [ho]))]
        rcases hstep with ⟨_, _, _, h⟩ | ⟨⟨m, h⟩, _⟩
        · exact h
        · obtain ⟨m', h'⟩ := hall op (by simp)
          rw [h] at h'
          cases h'

/-- C111: when a read has failed otherwise than by a time-out, every later read on the connection fails,
and the connection is not asked again: nothing is delivered behind a gap. -/
theorem C111_read_failure_final (E : Nat → SlEv) (enc : Int) (secret plain : Bool) (iv tag : Int) (hs : enc ≠ 0 → secret = true)
    (before later : List SlOp) (n : Int) (ho : SlOrder none (before ++ [.read n] ++ later)) (hio : ∀ op ∈ later, op.io)
    (rs : List Int) (r : Int) (s : SlSock) (hrun : slRun E (before ++ [.read n]) (slNew enc secret plain iv tag) = .ok (rs ++ [r], s))
    (hfail : r ≤ 0) (hto : s.rErr ≠ eWDT_TIMEOUT) :
    ∃ ts s', slRun E later s = .ok (ts, s') ∧ (∀ (i : Nat) (m : Int), later[i]? = some (.read m) → ts[i]? = some (-1)) ∧
      ((∀ op ∈ later, ∃ m, op = .read m) → s' = s) := by
  have hnew := slNew_fits enc secret plain iv tag hs
  obtain ⟨⟨rs', s0⟩, e0, l0, f0, o0⟩ := slRun_fits E before (.read n :: later) none _ (by simpa using ho) hnew
  obtain ⟨⟨x, s1⟩, e1, f1, o1⟩ := slStep_fits E (.read n) later _ s0 o0 f0
  have hs1 : r = x ∧ s = s1 := by
    rw [slRun_append, e0] at hrun
    simp only [bind, Except.bind, slRun, e1, Except.ok.injEq, Prod.mk.injEq] at hrun
    obtain ⟨h1, h2⟩ := hrun
    exact ⟨(List.append_inj' h1 rfl).2 |> List.singleton_inj.1 |>.symm, h2.symm⟩
  obtain ⟨rfl, rfl⟩ := hs1
  have hbad : s.rErr ≠ eOK := by
    rcases hp : List.foldl slPhase none before with _ | ⟨a, b⟩
    · rw [hp] at o0; exact o0.elim
    · rw [hp] at o0 f0
      obtain ⟨q, eq, hq⟩ := slReadOp_post E n s0 o0.1 f0.r (f0.phase.2.1.trans o0.2.1)
      simp only [slStep] at e1
      rw [eq] at e1
      cases e1
      exact hq.fail hfail
  obtain ⟨⟨ts, s'⟩, e2, _⟩ := slRun_fits E later [] _ s (by rw [List.append_nil]; exact o1) f1
  exact ⟨ts, s', e2, read_stuck E later _ s o1 f1 hbad hto hio ts s' e2⟩

theorem write_stuck (E : Nat → SlEv) : ∀ (ops : List SlOp) (ph : Option (Bool × Bool)) (s : SlSock), SlOrder ph ops → SlFits ph s →
    s.wErr ≠ eOK → (∀ op ∈ ops, op.io) → ∀ rs s', slRun E ops s = .ok (rs, s') →
    (∀ (i : Nat) (m : Int), ops[i]? = some (.write m) → rs[i]? = some (-1)) ∧ ((∀ op ∈ ops, ∃ m, op = .write m) → s' = s) := by
  intro ops
  induction ops with
  | nil =>
    intro ph s _ _ _ _ rs s' h
    simp only [slRun, Except.ok.injEq, Prod.mk.injEq] at h
    exact ⟨fun i m h' => by simp at h', fun _ => h.2.symm⟩
  | cons op ops ih =>
    intro ph s ho hfit h1 hio rs s' h
    obtain ⟨⟨x, s1⟩, e1, hf1, ho1⟩ := slStep_fits E op ops ph s ho hfit
    simp only [slRun, e1, bind, Except.bind] at h
    have hstep : (∃ m, op = .write m ∧ x = -1 ∧ s1 = s) ∨ ((∃ m, op = .read m) ∧ s1.wErr = s.wErr) := by
      have := hio op (by simp)
      cases op with
      | write m =>
        refine .inl ⟨m, rfl, ?_⟩
        have hn : 0 < m := by
          rcases ph with _ | ⟨a, b⟩
          · exact ho.elim
          · exact ho.1
        simp only [slStep, slWriteOp] at e1
        rw [if_neg (by omega), if_pos h1] at e1
        simp only [Except.ok.injEq, Prod.mk.injEq] at e1
        exact ⟨e1.1.symm, e1.2.symm⟩
      | read m =>
        refine .inr ⟨⟨m, rfl⟩, ?_⟩
        rcases ph with _ | ⟨a, b⟩
        · exact ho.elim
        · obtain ⟨r, e, hp⟩ := slReadOp_post E m s ho.1 hfit.r (hfit.phase.2.1.trans ho.2.1)
          simp only [slStep] at e1
          rw [e] at e1
          cases e1
          have := hp.step.1
          dsimp only at this
          rw [this]
      | connect => cases this
      | shutdownWrites => cases this
      | expectEndOfStream => cases this
      | close => cases this
    have he : s1.wErr = s.wErr := by
      rcases hstep with ⟨_, _, _, h⟩ | ⟨_, h⟩
      · rw [h]
      · exact h
    rcases hr : slRun E ops s1 with f | ⟨ts, s2⟩
    · rw [hr] at h; cases h
    · rw [hr] at h
      simp only [Except.ok.injEq, Prod.mk.injEq] at h
      obtain ⟨rfl, rfl⟩ := h
      obtain ⟨i1, i2⟩ := ih _ s1 ho1 hf1 (by rw [he]; exact h1) (fun o ho => hio o (by simp [ho])) ts s2 hr
      refine ⟨fun i m hi => ?_, fun hall => ?_⟩
      · cases i with
        | zero =>
          simp only [List.getElem?_cons_zero, Option.some.injEq] at hi ⊢
          rcases hstep with ⟨_, _, h, _⟩ | ⟨⟨_, h⟩, _⟩
          · exact h
          · rw [hi] at h; cases h
        | succ i =>
          simp only [List.getElem?_cons_succ] at hi ⊢
          exact i1 i m hi
      · rw [i2 (fun o ho => hall o (by simp [ho]))]
        rcases hstep with ⟨_, _, _, h⟩ | ⟨⟨m, h⟩, _⟩
        · exact h
        · obtain ⟨m', h'⟩ := hall op (by simp)
          rw [h] at h'
          cases h'

/-- C111: when a write has not been complete, every later write on the connection fails without sending
anything: the peer gets the beginning of what was written, without gaps. -/
theorem C111_write_failure_final (E : Nat → SlEv) (enc : Int) (secret plain : Bool) (iv tag : Int) (hs : enc ≠ 0 → secret = true)
    (before later : List SlOp) (n : Int) (ho : SlOrder none (before ++ [.write n] ++ later)) (hio : ∀ op ∈ later, op.io)
    (rs : List Int) (r : Int) (s : SlSock) (hrun : slRun E (before ++ [.write n]) (slNew enc secret plain iv tag) = .ok (rs ++ [r], s))
    (hfail : r ≠ n) :
    ∃ ts s', slRun E later s = .ok (ts, s') ∧ (∀ (i : Nat) (m : Int), later[i]? = some (.write m) → ts[i]? = some (-1)) ∧
      ((∀ op ∈ later, ∃ m, op = .write m) → s' = s) := by
  have hnew := slNew_fits enc secret plain iv tag hs
  obtain ⟨⟨rs', s0⟩, e0, l0, f0, o0⟩ := slRun_fits E before (.write n :: later) none _ (by simpa using ho) hnew
  obtain ⟨⟨x, s1⟩, e1, f1, o1⟩ := slStep_fits E (.write n) later _ s0 o0 f0
  have hs1 : r = x ∧ s = s1 := by
    rw [slRun_append, e0] at hrun
    simp only [bind, Except.bind, slRun, e1, Except.ok.injEq, Prod.mk.injEq] at hrun
    obtain ⟨h1, h2⟩ := hrun
    exact ⟨(List.append_inj' h1 rfl).2 |> List.singleton_inj.1 |>.symm, h2.symm⟩
  obtain ⟨rfl, rfl⟩ := hs1
  have hbad : s.wErr ≠ eOK := by
    rcases hp : List.foldl slPhase none before with _ | ⟨a, b⟩
    · rw [hp] at o0; exact o0.elim
    · rw [hp] at o0 f0
      obtain ⟨q, eq, hq⟩ := slWriteOp_post E n s0 o0.1 f0.w f0.r (f0.phase.2.2.trans o0.2.1)
      simp only [slStep] at e1
      rw [eq] at e1
      cases e1
      exact hq.fail hfail
  obtain ⟨⟨ts, s'⟩, e2, _⟩ := slRun_fits E later [] _ s (by rw [List.append_nil]; exact o1) f1
  exact ⟨ts, s', e2, write_stuck E later _ s o1 f1 hbad hio ts s' e2⟩

/-- `s` with another tag interval of the peer -/
def SlSock.withTag (s : SlSock) (t : Int) : SlSock := { s with rTag := t }

/-- an outcome with another tag interval of the peer -/
def slMap {α : Type} (t : Int) (m : Except Fault (α × SlSock)) : Except Fault (α × SlSock) :=
  match m with
  | .ok r => .ok (r.1, r.2.withTag t)
  | .error f => .error f

theorem slMap_bind {α β : Type} (t : Int) (m : Except Fault (α × SlSock)) (f g : α × SlSock → Except Fault (β × SlSock))
    (h : ∀ a s, g (a, s.withTag t) = slMap t (f (a, s))) : (slMap t m >>= g) = slMap t (m >>= f) := by
  rcases m with e | ⟨a, s⟩
  · rfl
  · exact h a s

theorem slRead_tag (E : Nat → SlEv) (n t : Int) (s : SlSock) :
    slRead E n (s.withTag t) = ((slRead E n s).1, (slRead E n s).2.withTag t) := by
  unfold slRead SlSock.withTag
  dsimp only
  split
  · rfl
  · split <;> rfl

theorem slWrite_tag (E : Nat → SlEv) (n t : Int) (s : SlSock) :
    slWrite E n (s.withTag t) = ((slWrite E n s).1, (slWrite E n s).2.withTag t) := by
  unfold slWrite SlSock.withTag
  dsimp only
  split <;> rfl

theorem slEncStart_tag (E : Nat → SlEv) (t : Int) (s : SlSock) : slEncStart E (s.withTag t) = slMap t (slEncStart E s) := by
  unfold slEncStart SlSock.withTag
  dsimp only
  split <;> rfl

theorem slEncrypt_tag (E : Nat → SlEv) (n t : Int) (s : SlSock) : slEncrypt E n (s.withTag t) = slMap t (slEncrypt E n s) := by
  unfold slEncrypt
  have h := slWrite_tag E n t { s with k := s.k + 1, encNum := s.encNum + n }
  unfold SlSock.withTag at *
  dsimp only at h ⊢
  split
  · rfl
  · split
    · rfl
    · rw [h]
      dsimp only
      split <;> rfl

theorem slWriteTag_tag (E : Nat → SlEv) (t : Int) (s : SlSock) : slWriteTag E (s.withTag t) = slMap t (slWriteTag E s) := by
  unfold slWriteTag
  have h := slWrite_tag E (slTagLen s.encType) t { s with k := s.k + 1 }
  unfold SlSock.withTag at *
  dsimp only at h ⊢
  split
  · rfl
  · split
    · rfl
    · rw [h]; rfl

theorem slEncIv_tag (E : Nat → SlEv) (t : Int) (s : SlSock) : slEncIv E (s.withTag t) = slMap t (slEncIv E s) := by
  unfold slEncIv
  rw [show slEncReset (s.withTag t) = (slEncReset s).withTag t from rfl, slEncStart_tag]
  rw [show (s.withTag t).ivInt = s.ivInt from rfl, show (s.withTag t).encNum = s.encNum from rfl, show (s.withTag t).wTag = s.wTag from rfl]
  by_cases h : s.ivInt = 0 ∨ s.encNum + s.wTag ≤ s.ivInt
  · rw [if_pos h, if_pos h]; rfl
  · rw [if_neg h, if_neg h]
    refine slMap_bind t _ _ _ fun a s' => ?_
    dsimp only
    split
    · rfl
    · rw [slWrite_tag]; rfl

theorem slWriteRest_tag (E : Nat → SlEv) (n d t : Int) (s : SlSock) : slWriteRest E n d (s.withTag t) = slMap t (slWriteRest E n d s) := by
  unfold slWriteRest
  rw [slEncrypt_tag]
  refine slMap_bind t _ _ _ fun a s' => ?_
  dsimp only
  split <;> rfl

theorem slWriteFromTag_tag (E : Nat → SlEv) (n d t : Int) (s : SlSock) : slWriteFromTag E n d (s.withTag t) = slMap t (slWriteFromTag E n d s) := by
  unfold slWriteFromTag
  rw [slWriteTag_tag, show (s.withTag t).totW = s.totW from rfl, show (s.withTag t).wTag = s.wTag from rfl]
  split
  · rfl
  · refine slMap_bind t _ _ _ fun a s' => ?_
    dsimp only
    split
    · rfl
    · rw [slEncIv_tag]
      refine slMap_bind t _ _ _ fun a s' => ?_
      dsimp only
      split
      · rfl
      · exact slWriteRest_tag E n d t s'

theorem slWriteWithTag_tag (E : Nat → SlEv) (n t : Int) (s : SlSock) : slWriteWithTag E n (s.withTag t) = slMap t (slWriteWithTag E n s) := by
  unfold slWriteWithTag
  rw [show (s.withTag t).totW = s.totW from rfl, show (s.withTag t).wTag = s.wTag from rfl]
  split
  · rfl
  · dsimp only
    split
    · split
      · rw [slEncrypt_tag]
        refine slMap_bind t _ _ _ fun a s' => ?_
        dsimp only
        split
        · rfl
        · exact slWriteFromTag_tag E n _ t { s' with totW := s'.totW + a }
      · exact slWriteFromTag_tag E n 0 t s
    · exact slWriteRest_tag E n 0 t s

theorem slWriteLoop_tag (E : Nat → SlEv) (n t : Int) : ∀ (fuel : Nat) (d : Int) (s : SlSock),
    slWriteLoop E n fuel d (s.withTag t) = slMap t (slWriteLoop E n fuel d s) := by
  intro fuel
  induction fuel with
  | zero => intro d s; unfold slWriteLoop; split <;> rfl
  | succ fuel ih =>
    intro d s
    unfold slWriteLoop
    rw [show (s.withTag t).wTag = s.wTag from rfl]
    split
    · dsimp only
      rw [slWriteWithTag_tag]
      refine slMap_bind t _ _ _ fun a s' => ?_
      dsimp only
      split
      · rfl
      · exact ih _ s'
    · rfl

theorem slWriteOp_tag (E : Nat → SlEv) (n t : Int) (s : SlSock) : slWriteOp E n (s.withTag t) = slMap t (slWriteOp E n s) := by
  have hS : slWriteSettings E (s.withTag t) = (slWriteSettings E s).map (·.withTag t) := by
    unfold slWriteSettings
    rw [show (s.withTag t).enc = s.enc from rfl, show (s.withTag t).wSet = s.wSet from rfl, show (s.withTag t).secret = s.secret from rfl]
    split
    · rfl
    · split
      · rfl
      · rw [slEncStart_tag]
        rcases slEncStart E s with f | ⟨b, s'⟩
        · rfl
        · simp only [slMap, bind, Except.bind]
          split
          · rfl
          · rw [slWrite_tag]
            dsimp only
            split <;> rfl
  unfold slWriteOp
  rw [hS, show (s.withTag t).wErr = s.wErr from rfl]
  split
  · rfl
  · split
    · rfl
    · rcases slWriteSettings E s with f | s1
      · rfl
      · simp only [Except.map, bind, Except.bind]
        rw [show (s1.withTag t).wErr = s1.wErr from rfl, show (s1.withTag t).enc = s1.enc from rfl, show (s1.withTag t).wTag = s1.wTag from rfl]
        split
        · rfl
        · split
          · rw [slWrite_tag]; rfl
          · split
            · exact slEncrypt_tag E n t s1
            · exact slWriteLoop_tag E n t _ _ s1

theorem slDecFinish_tag (E : Nat → SlEv) (b : Bool) (t : Int) (s : SlSock) :
    slDecFinish E b (s.withTag t) = ((slDecFinish E b s).1, (slDecFinish E b s).2.withTag t) := by
  unfold slDecFinish SlSock.withTag
  dsimp only
  split <;> rfl

theorem slEncFinish_tag (E : Nat → SlEv) (t : Int) (s : SlSock) :
    slEncFinish E (s.withTag t) = ((slEncFinish E s).1, (slEncFinish E s).2.1, (slEncFinish E s).2.2.withTag t) := by
  unfold slEncFinish SlSock.withTag
  dsimp only
  split <;> rfl

theorem slReadTag_tag (E : Nat → SlEv) (t : Int) (s : SlSock) : slReadTag E (s.withTag t) = slMap t (slReadTag E s) := by
  unfold slReadTag
  rw [slRead_tag, show (s.withTag t).enc = s.enc from rfl]
  split
  · rfl
  · dsimp only
    split <;> rfl

theorem slFinReads_tag (E : Nat → SlEv) (b : Bool) (t : Int) (s : SlSock) : slFinReads E b (s.withTag t) = slMap t (slFinReads E b s) := by
  unfold slFinReads
  rw [slReadTag_tag, show (s.withTag t).enc = s.enc from rfl, slDecFinish_tag]
  split
  · refine slMap_bind t _ _ _ fun a s' => ?_
    dsimp only
    rw [slDecFinish_tag]
    rfl
  · rfl

theorem slFinWrites_tag (E : Nat → SlEv) (b : Bool) (t : Int) (s : SlSock) :
    slFinWrites E b (s.withTag t) = ((slFinWrites E b s).1, (slFinWrites E b s).2.withTag t) := by
  unfold slFinWrites
  rw [slEncFinish_tag]
  dsimp only
  rw [slWrite_tag]
  split <;> rfl

theorem slClose_tag (E : Nat → SlEv) (b : Bool) (t : Int) (s : SlSock) : slClose E b (s.withTag t) = slMap t (slClose E b s) := by
  unfold slClose
  rw [slFinWrites_tag, show (s.withTag t).fd = s.fd from rfl, show (s.withTag t).wFin = s.wFin from rfl,
    show slNonRetryable (s.withTag t) = slNonRetryable s from rfl]
  split
  · rfl
  · dsimp only
    have hw : (if s.wFin = true then (eOK, s.withTag t) else ((slFinWrites E b s).1, (slFinWrites E b s).2.withTag t)) =
        ((if s.wFin = true then (eOK, s) else slFinWrites E b s).1, (if s.wFin = true then (eOK, s) else slFinWrites E b s).2.withTag t) := by
      split <;> rfl
    rw [hw]
    generalize (if s.wFin = true then (eOK, s) else slFinWrites E b s) = w
    dsimp only
    rw [slFinReads_tag, show (w.2.withTag t).rFin = w.2.rFin from rfl]
    have hr : (if w.2.rFin = true then Except.ok (eOK, w.2.withTag t) else slMap t (slFinReads E b w.2)) =
        slMap t (if w.2.rFin = true then Except.ok (eOK, w.2) else slFinReads E b w.2) := by
      split <;> rfl
    rw [hr]
    exact slMap_bind t _ _ _ fun a s' => rfl

theorem slReadSettings_tag (E : Nat → SlEv) (t : Int) (s : SlSock) (hr : s.rSet = false) :
    slReadSettings E (s.withTag t) = slReadSettings E s ∨
    ∃ s', slReadSettings E s = .ok s' ∧ slReadSettings E (s.withTag t) = .ok (s'.withTag t) ∧ s'.rSet = false ∧ (s'.rErr = eOK → s'.enc = 0) := by
  unfold slReadSettings
  rw [show (s.withTag t).enc = s.enc from rfl, show (s.withTag t).rSet = s.rSet from rfl, show (s.withTag t).secret = s.secret from rfl,
    show (s.withTag t).k = s.k from rfl, slRead_tag]
  by_cases h0 : s.enc = 0 ∨ s.rSet = true
  · rw [if_pos h0, if_pos h0]
    refine .inr ⟨s, rfl, rfl, hr, fun _ => ?_⟩
    rcases h0 with h0 | h0
    · exact h0
    · rw [hr] at h0; cases h0
  · rw [if_neg h0, if_neg h0]
    by_cases h1 : s.secret = false
    · rw [if_pos h1, if_pos h1]; exact .inl rfl
    · rw [if_neg h1, if_neg h1]
      dsimp only
      obtain ⟨g1, g2, g3, g4⟩ := slRead_spec E 1 s
      have hrs : (slRead E 1 s).2.rSet = false := by rw [g1]; exact hr
      by_cases h2 : (slRead E 1 s).1 ≠ 1
      · rw [if_pos h2, if_pos h2]
        refine .inr ⟨_, rfl, rfl, hrs, fun h => absurd h (g2 ?_)⟩
        have := g4 (by omega)
        omega
      · rw [if_neg h2, if_neg h2]
        by_cases h3 : (E s.k).ok = false
        · rw [if_pos h3, if_pos h3]
          exact .inr ⟨_, rfl, rfl, hrs, fun h => absurd h eOK_ne.2.2.2.2.2.2.2.1⟩
        · rw [if_neg h3, if_neg h3, slRead_tag]
          dsimp only
          have hrs2 : (slRead E (kEncryptionCmdLen - 1) (slRead E 1 s).2).2.rSet = false := by
            rw [(slRead_spec E (kEncryptionCmdLen - 1) (slRead E 1 s).2).1]; exact hrs
          by_cases h4 : (slRead E (kEncryptionCmdLen - 1) (slRead E 1 s).2).1 ≠ kEncryptionCmdLen - 1
          · rw [if_pos h4, if_pos h4]
            exact .inr ⟨_, rfl, rfl, hrs2, fun h => absurd h eOK_ne.1⟩
          · rw [if_neg h4, if_neg h4]
            exact .inl rfl

/-- one call on two sockets that differ in the tag interval of an earlier connection -/
theorem slStep_tag (E : Nat → SlEv) (op : SlOp) (ops : List SlOp) (ph : Option (Bool × Bool)) (s : SlSock) (t : Int)
    (ho : SlOrder ph (op :: ops)) (h : SlFits ph s) (hr : s.rSet = false) :
    slStep E op (s.withTag t) = slStep E op s ∨
    ∃ x s', slStep E op s = .ok (x, s') ∧ slStep E op (s.withTag t) = .ok (x, s'.withTag t) ∧ s'.rSet = false := by
  have fromMap : ∀ (m : Except Fault (Int × SlSock)) (m' : Except Fault (Int × SlSock)), m' = slMap t m → SlOk m (fun r => r.2.rSet = false) →
      ∃ x s', m = .ok (x, s') ∧ m' = .ok (x, s'.withTag t) ∧ s'.rSet = false := by
    rintro m m' rfl ⟨⟨x, s'⟩, rfl, h⟩
    exact ⟨x, s', rfl, rfl, h⟩
  obtain ⟨⟨x, s1⟩, e1, f1, o1⟩ := slStep_fits E op ops ph s ho h
  cases op with
  | connect fd => exact .inr ⟨_, _, rfl, rfl, hr⟩
  | write n =>
    refine .inr (fromMap _ _ (slWriteOp_tag E n t s) ?_)
    rcases ph with _ | ⟨a, b⟩
    · exact ho.elim
    · exact (slWriteOp_post E n s ho.1 h.w h.r (h.phase.2.2.trans ho.2.1)).mono fun r hp => by rw [hp.step]; exact hr
  | shutdownWrites =>
    refine .inr ⟨_, _, rfl, ?_, ?_⟩
    · simp only [slStep]
      rw [slFinWrites_tag]
      rfl
    · dsimp only
      rw [(slFinWrites_post E true s h.w).2]
      exact hr
  | expectEndOfStream =>
    refine .inr (fromMap _ _ ?_ ?_)
    · simp only [slStep]
      rw [slFinReads_tag]
      exact slMap_bind t _ _ _ fun a s' => rfl
    · refine SlOk.bind (slFinReads_post E true s h.r) ?_
      rintro ⟨c, s'⟩ ⟨_, e⟩
      dsimp only at e
      refine SlOk.pure ?_
      dsimp only
      rw [e]
      exact hr
  | close b =>
    refine .inr (fromMap _ _ ?_ ?_)
    · simp only [slStep]
      rw [slClose_tag]
      exact slMap_bind t _ _ _ fun a s' => rfl
    · by_cases hfd : s.fd < 0
      · have hc : slClose E b s = .ok (eOK, s) := by unfold slClose; rw [if_pos hfd]
        simp only [slStep, hc, bind, Except.bind]
        exact SlOk.pure hr
      · refine SlOk.bind (slClose_post E b s h.r h.w (by omega)) ?_
        rintro ⟨c, s'⟩ ⟨_, k', e⟩
        dsimp only at e
        refine SlOk.pure ?_
        dsimp only
        rw [e]
        rfl
  | read n =>
    have hu : ∀ u : SlSock, slStep E (.read n) u = slReadOp E n u := fun _ => rfl
    rw [hu] at e1
    rw [hu, hu]
    clear hu
    unfold slReadOp at e1 ⊢
    rw [show (s.withTag t).rErr = s.rErr from rfl]
    by_cases h1 : n ≤ 0
    · rw [if_pos h1, if_pos h1]; exact .inl rfl
    · rw [if_neg h1] at e1
      rw [if_neg h1, if_neg h1]
      by_cases h2 : s.rErr ≠ eOK ∧ s.rErr ≠ eWDT_TIMEOUT
      · rw [if_pos h2, if_pos h2]
        exact .inr ⟨_, _, rfl, rfl, hr⟩
      · rw [if_neg h2] at e1
        rw [if_neg h2, if_neg h2]
        rcases slReadSettings_tag E t { s with rErr := eOK } hr with hs | ⟨s', a1, a2, a3, a4⟩
        · left
          have : ({ s.withTag t with rErr := eOK } : SlSock) = { s with rErr := eOK }.withTag t := rfl
          rw [this, hs]
        · right
          have : ({ s.withTag t with rErr := eOK } : SlSock) = { s with rErr := eOK }.withTag t := rfl
          rw [this, a1, a2]
          simp only [bind, Except.bind]
          rw [show (s'.withTag t).plainPeer = s'.plainPeer from rfl, show (s'.withTag t).rErr = s'.rErr from rfl]
          -- a plain peer: only `slRead` is left
          have body : ∀ (got : Int) (u : SlSock), u.enc = 0 → u.rSet = false → ∃ x s'', slReadBody E n got u = .ok (x, s'') ∧
              slReadBody E n got (u.withTag t) = .ok (x, s''.withTag t) ∧ s''.rSet = false := by
            intro got u hu1 hu2
            unfold slReadBody
            rw [show (u.withTag t).enc = u.enc from rfl, if_pos hu1, if_pos hu1, slRead_tag]
            dsimp only
            have hq : (slRead E (n - got) u).2.rSet = false := by rw [(slRead_spec E (n - got) u).1]; exact hu2
            split
            · exact ⟨_, _, rfl, rfl, hq⟩
            · exact ⟨_, _, rfl, rfl, hq⟩
          split
          · exact body 1 { s' with rErr := eOK, enc := 0, secret := false } rfl a3
          · split
            · exact ⟨_, _, rfl, rfl, a3⟩
            · rename_i hc
              exact body 0 s' (a4 (by simpa using hc)) a3

theorem slRun_tag (E : Nat → SlEv) (t : Int) : ∀ (ops : List SlOp) (ph : Option (Bool × Bool)) (s : SlSock),
    SlOrder ph ops → SlFits ph s → s.rSet = false → (slRun E ops (s.withTag t)).map (·.1) = (slRun E ops s).map (·.1) := by
  intro ops
  induction ops with
  | nil => intro ph s _ _ _; rfl
  | cons op ops ih =>
    intro ph s ho h hr
    obtain ⟨⟨x, s1⟩, e1, f1, o1⟩ := slStep_fits E op ops ph s ho h
    simp only [slRun, bind, Except.bind]
    rcases slStep_tag E op ops ph s t ho h hr with e | ⟨y, s', a1, a2, a3⟩
    · rw [e]
    · rw [a1, a2]
      rw [a1] at e1
      cases e1
      have := ih _ _ o1 f1 a3
      dsimp only at this ⊢
      rcases h2 : slRun E ops s1 with f | p
      · rw [h2] at this
        rcases h3 : slRun E ops (s1.withTag t) with f' | p'
        · rw [h3] at this; exact this
        · rw [h3] at this; cases this
      · rw [h2] at this
        rcases h3 : slRun E ops (s1.withTag t) with f' | p'
        · rw [h3] at this; cases this
        · rw [h3] at this
          simp only [Except.map, Except.ok.injEq] at this ⊢
          rw [this]

/-- what never changes, and what happens to the encryption -/
def SlConst (s s' : SlSock) : Prop :=
  s'.ivInt = s.ivInt ∧ s'.wTag = s.wTag ∧ s'.plainPeer = s.plainPeer ∧
    (s'.enc = s.enc ∧ s'.secret = s.secret ∨ s.plainPeer = true ∧ s'.enc = 0)

theorem SlConst.trans {a b c : SlSock} (h : SlConst a b) (h' : SlConst b c) : SlConst a c := by
  obtain ⟨x1, x2, x3, x4⟩ := h
  obtain ⟨y1, y2, y3, y4⟩ := h'
  refine ⟨y1.trans x1, y2.trans x2, y3.trans x3, ?_⟩
  rcases y4 with ⟨y4, y5⟩ | ⟨y4, y5⟩
  · rcases x4 with ⟨x4, x5⟩ | ⟨x4, x5⟩
    · exact .inl ⟨y4.trans x4, y5.trans x5⟩
    · exact .inr ⟨x4, y4.trans x5⟩
  · exact .inr ⟨x3 ▸ y4, y5⟩

theorem slStep_const (E : Nat → SlEv) (op : SlOp) (ops : List SlOp) (ph : Option (Bool × Bool)) (s : SlSock)
    (ho : SlOrder ph (op :: ops)) (h : SlFits ph s) : SlOk (slStep E op s) (fun r => SlConst s r.2) := by
  have same : ∀ s' : SlSock, s'.ivInt = s.ivInt → s'.wTag = s.wTag → s'.plainPeer = s.plainPeer → s'.enc = s.enc → s'.secret = s.secret →
      SlConst s s' := fun _ a b c d e => ⟨a, b, c, .inl ⟨d, e⟩⟩
  cases op with
  | connect fd => exact SlOk.pure (same _ rfl rfl rfl rfl rfl)
  | read n =>
    rcases ph with _ | ⟨a, b⟩
    · exact ho.elim
    · refine (slReadOp_post E n s ho.1 h.r (h.phase.2.1.trans ho.2.1)).mono fun r hp => ⟨?_, ?_, ?_, hp.step.2⟩
      · rw [hp.step.1]
      · rw [hp.step.1]
      · rw [hp.step.1]
  | write n =>
    rcases ph with _ | ⟨a, b⟩
    · exact ho.elim
    · refine (slWriteOp_post E n s ho.1 h.w h.r (h.phase.2.2.trans ho.2.1)).mono fun r hp => same _ ?_ ?_ ?_ ?_ ?_
      all_goals rw [hp.step]
  | shutdownWrites =>
    have e := (slFinWrites_post E true s h.w).2
    refine SlOk.pure (same _ ?_ ?_ ?_ ?_ ?_)
    all_goals (dsimp only; rw [e])
  | expectEndOfStream =>
    refine SlOk.bind (slFinReads_post E true s h.r) ?_
    rintro ⟨c, s'⟩ ⟨_, e⟩
    dsimp only at e
    refine SlOk.pure (same _ ?_ ?_ ?_ ?_ ?_)
    all_goals (dsimp only; rw [e])
  | close b =>
    by_cases hfd : s.fd < 0
    · have hc : slClose E b s = .ok (eOK, s) := by unfold slClose; rw [if_pos hfd]
      simp only [slStep, hc, bind, Except.bind]
      exact SlOk.pure (same _ rfl rfl rfl rfl rfl)
    · refine SlOk.bind (slClose_post E b s h.r h.w (by omega)) ?_
      rintro ⟨c, s'⟩ ⟨_, k', e⟩
      dsimp only at e
      refine SlOk.pure (same _ ?_ ?_ ?_ ?_ ?_)
      all_goals (dsimp only; rw [e]; rfl)

theorem slRun_const (E : Nat → SlEv) : ∀ (ops rest : List SlOp) (ph : Option (Bool × Bool)) (s : SlSock), SlOrder ph (ops ++ rest) → SlFits ph s →
    SlOk (slRun E ops s) (fun r => SlConst s r.2) := by
  intro ops
  induction ops with
  | nil => intro rest ph s _ _; exact SlOk.pure ⟨rfl, rfl, rfl, .inl ⟨rfl, rfl⟩⟩
  | cons op ops ih =>
    intro rest ph s ho h
    obtain ⟨⟨x, s1⟩, e1, f1, o1⟩ := slStep_fits E op (ops ++ rest) ph s ho h
    obtain ⟨⟨y, s2⟩, e2, c2⟩ := slStep_const E op (ops ++ rest) ph s ho h
    rw [e1] at e2
    cases e2
    obtain ⟨⟨ys, s3⟩, e3, c3⟩ := ih rest _ s1 o1 f1
    refine ⟨(x :: ys, s3), ?_, c2.trans c3⟩
    simp only [slRun, bind, Except.bind, e1, e3]

/-- C111: when a connection has been closed, in whatever way it had failed, the calls on the following
connections return what they would return on a new socket with the same options in the same
circumstances, unless a peer without encryption has been accepted: then, as on a new socket without
encryption (see C56). -/
theorem C111_next_connection (E : Nat → SlEv) (enc : Int) (secret plain : Bool) (iv tag : Int) (hs : enc ≠ 0 → secret = true)
    (before later : List SlOp) (t : Bool) (ho : SlOrder none (before ++ [.close t] ++ later)) :
    ∃ rs s, slRun E (before ++ [.close t]) (slNew enc secret plain iv tag) = .ok (rs, s) ∧ s.fd < 0 ∧
      (s.enc = enc ∧ s.secret = secret ∨ plain = true ∧ s.enc = 0) ∧
      (slRun E later s).map (·.1) =
        (slRun E later { slNew enc secret plain iv tag with k := s.k, enc := s.enc, secret := s.secret }).map (·.1) := by
  have hnew := slNew_fits enc secret plain iv tag hs
  obtain ⟨⟨rs, s⟩, e, l, f, o⟩ := slRun_fits E (before ++ [.close t]) later none _ ho hnew
  obtain ⟨⟨rs', s'⟩, e', c⟩ := slRun_const E (before ++ [.close t]) later none _ ho hnew
  rw [e] at e'
  cases e'
  have hph : List.foldl slPhase none (before ++ [.close t]) = none := by
    rw [List.foldl_append]
    generalize List.foldl slPhase none before = p
    rcases p with _ | ⟨a, b⟩ <;> rfl
  rw [hph] at f o
  dsimp only at f o c
  have hres : slReset s = s := f.phase
  obtain ⟨c1, c2, c3, c4⟩ := c
  refine ⟨rs, s, e, by rw [← hres]; exact (show (-1 : Int) < 0 by decide), c4, ?_⟩
  -- the state is that of a new socket but for the tag interval of the peer
  have hshape : s = ({ slNew enc secret plain iv tag with k := s.k, enc := s.enc, secret := s.secret } : SlSock).withTag s.rTag := by
    refine hres.symm.trans ?_
    unfold slReset slDecReset slEncReset SlSock.withTag
    simp only [c1, c2, c3]
    rfl
  have hfit : SlFits none ({ slNew enc secret plain iv tag with k := s.k, enc := s.enc, secret := s.secret } : SlSock) := by
    obtain ⟨a, b, c⟩ := hnew
    refine ⟨⟨f.r.sec, a.off, fun h => by simp [slNew] at h, fun h => by simp [slNew] at h, a.tot, fun _ _ h => by simp [slNew] at h⟩,
      ⟨fun h => ?_, b.type, b.tot, b.off, fun _ _ h => by simp [slNew] at h⟩, rfl⟩
    exact f.w.tag (by rw [c2]; exact h)
  have := slRun_tag E s.rTag later none _ o hfit rfl
  rw [← hshape] at this
  exact this

/-- an environment: the peer's settings have a tag interval of 4, from the 60th answer on everything fails -/
def exSlEnv (k : Nat) : SlEv := { n := 25, ok := decide (k < 60), tag := 4 }

/-- what a sender may do: a connection is used and closed, the next one is ended as `processDoneCmd` does -/
def exSlOps : List SlOp :=
  [.connect 5, .write 10, .read 6, .write 9, .close true, .connect 6, .write 7, .read 3, .write 1, .read 1,
    .shutdownWrites, .expectEndOfStream, .close false]

/- `C111_no_check` and `C111_next_connection`: encrypted, tags every 4 bytes and a new IV every 8; the second
connection fails on the way. -/
example : SlOrder none exSlOps := by simp [exSlOps, SlOrder]

example : (slRun exSlEnv exSlOps (slNew ENC_AES128_GCM true false 8 4)).map (·.1) =
    .ok [0, 10, 6, 9, 0, 0, 7, 3, -1, -1, eENCRYPTION_ERROR, eENCRYPTION_ERROR, eERROR] := by decide +kernel

/-- the 24th answer is a read error and nothing else fails (`i = 24`), or the 5th a failure (`j = 5`) -/
def exSlFail (i j k : Nat) : SlEv := { n := if k = i then -1 else 40, ok := decide (k ≠ j), tag := 4 }

/- `C111_read_failure_final`: reading goes on to fail, writing works. -/
example : (slRun (exSlFail 24 1000) [.connect 5, .write 10, .read 6, .read 5, .write 2, .read 1, .write 1]
    (slNew ENC_AES128_GCM true false 8 4)).map (fun r => (r.1, r.2.rErr)) = .ok ([0, 10, 6, -1, 2, -1, 1], eSOCKET_READ_ERROR) := by
  decide +kernel

/- `C111_write_failure_final`: the other way round. -/
example : (slRun (exSlFail 1000 5) [.connect 5, .write 10, .read 6, .read 5, .write 2, .read 1, .write 1]
    (slNew ENC_AES128_GCM true false 8 4)).map (·.1) = .ok [0, -1, 6, 5, -1, 1, -1] := by
  decide +kernel

end Wdt
