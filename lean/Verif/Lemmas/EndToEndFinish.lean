import Verif.Lemmas.EndToEndDrive
import Verif.Props.SourceQueue
/-
How a transfer can be completed over one port: it is connected again, everything is sent, and
both threads end.
-/
namespace Wdt
variable {c : ECfg} {mb : Int} {del : Bool}

/-- The sender thread gives up its connection. -/
theorem can_lost {S : ESys} {t : Nat} (hf : EFine c mb del S) (hs : Solo c t S) (hfr : Free S t) :
    Can c S fun S' => Solo c t S' ∧ Free S' t ∧ (S'.port t).sph = .lost ∧ S'.rcv = S.rcv := by
  have lose : ∀ S1 : ESys, EFine c mb del S1 → Solo c t S1 → Free S1 t →
      ((S1.port t).sph = .sending ∨ (S1.port t).sph = .awaitCmd ∨ (S1.port t).sph = .awaitCp) →
      Can c S1 fun S' => Solo c t S' ∧ Free S' t ∧ (S'.port t).sph = .lost ∧ S'.rcv = S1.rcv := by
    intro S1 hf1 hs1 hfr1 hp
    have he : eStep c S1 (.s (.lose t)) = some (S1.setP t ((S1.port t).leave .lost)) := by
      simp only [eStep, eStepS, hfr1.get (by rw [hf1.len]; exact hs1.lt)]
      rw [if_pos hp]
    exact .one hf1 _ he rfl rfl rfl ⟨hs1.setP (by simp [Port.leave]), hfr1, by simp [ESys.setP, upd_self, Port.leave], rfl⟩
  cases hp : (S.port t).sph with
  | start =>
    have he : eStep c S (.s (.connect t)) = some (S.setP t { S.port t with sph := .sending, hd := some [], att := true }) := by
      simp [eStep, eStepS, hp, hs.lt, hs.rcv1, hs.rcv2]
    exact .cons hf _ he rfl rfl rfl fun hf1 => lose _ hf1 (hs.setP (by simp)) hfr (.inl (by simp [ESys.setP, upd_self]))
  | sending => exact lose S hf hs hfr (.inl hp)
  | awaitCmd => exact lose S hf hs hfr (.inr (.inl hp))
  | awaitCp => exact lose S hf hs hfr (.inr (.inr hp))
  | lost => exact .here hf ⟨hs, hfr, hp, rfl⟩
  | processing l w =>
    exact (can_list l w S hf hs hfr hp).trans hf fun S1 hf1 h => (lose S1 hf1 h.1 h.2.1 (.inl (by rw [h.2.2.2.1]))).mono
      fun S' h' => ⟨h'.1, h'.2.1, h'.2.2.1, h'.2.2.2.trans h.2.2.1⟩
  | gotDone =>
    have he : eStep c S (.s (.doneEnd t false)) = some (S.setP t ((S.port t).leave .lost)) := by
      simp [eStep, eStepS, hp]
    exact .one hf _ he rfl rfl rfl ⟨hs.setP (by simp [Port.leave]), hfr, by simp [ESys.setP, upd_self, Port.leave], rfl⟩
  | ended ok => exact absurd hp (hs.snd ok)

theorem Solo.goes {S S' : ESys} {t : Nat} (h : Solo c t S) (m : RGoes t S S') (h1 : (S'.rcv.th t).phase ≠ .failing)
    (h2 : (S'.rcv.th t).phase ≠ .ended) : Solo c t S' :=
  h.actR m.snd (by rw [m.sph]; exact h.snd) h1 h2 m.th

/-- And the receiver thread waits for a new one. -/
theorem can_apart {S : ESys} {t : Nat} (hf : EFine c mb del S) (hs : Solo c t S) (hfr : Free S t)
    (hl : S.rcv.lock = none) (hp : (S.port t).sph = .lost) :
    Can c S fun S' => Solo c t S' ∧ Free S' t ∧ (S'.port t).sph = .lost ∧ (S'.rcv.th t).phase = .accepting := by
  have acc : ∀ S1 : ESys, EFine c mb del S1 → Solo c t S1 → Free S1 t → S1.rcv.lock = none → (S1.port t).sph = .lost →
      ((S1.rcv.th t).phase = .reading → (S1.port t).acc = true) →
      Can c S1 fun S' => Solo c t S' ∧ Free S' t ∧ (S'.port t).sph = .lost ∧ (S'.rcv.th t).phase = .accepting := by
    intro S1 hf1 hs1 hfr1 hl1 hp1 ha
    refine (can_accepting hf1 hs1.lt hl1 hs1.rcv1 hs1.rcv2 ha).mono fun S' h => ?_
    refine ⟨hs1.goes h.1 (by rw [h.2.1]; simp) (by rw [h.2.1]; simp), ?_, by rw [h.1.sph]; exact hp1, h.2.1⟩
    unfold Free at *
    rw [h.1.snd]; exact hfr1
  by_cases ha : (S.rcv.th t).phase = .reading → (S.port t).acc = true
  · exact acc S hf hs hfr hl hp ha
  have ha' : (S.rcv.th t).phase = .reading ∧ (S.port t).acc = false := by
    simp only [Classical.not_imp, Bool.not_eq_true] at ha; exact ha
  have he : eStep c S (.s (.connect t)) = some (S.setP t { S.port t with sph := .awaitCp, more := (S.port t).more + 1, att := true }) := by
    simp [eStep, eStepS, hp, hs.lt, ha'.1]
  refine .cons hf _ he rfl rfl rfl fun hf1 => ?_
  have hs1 := hs.setP (p := { S.port t with sph := .awaitCp, more := (S.port t).more + 1, att := true }) (by simp)
  have he1 : ∃ p, eStep c (S.setP t { S.port t with sph := .awaitCp, more := (S.port t).more + 1, att := true }) (.v (.accept1 t)) =
      some ((S.setP t { S.port t with sph := .awaitCp, more := (S.port t).more + 1, att := true }).setP t p) ∧ p.sph = .awaitCp ∧ p.acc = true := by
    cases hh : (S.port t).hd with
    | some l => exact ⟨{ S.port t with sph := .awaitCp, more := (S.port t).more + 1, att := true, acc := true },
        by simp [eStep, eStepR, ESys.setP, upd_self, ha'.1, ha'.2, hh, hs.lt], rfl, rfl⟩
    | none => exact ⟨{ S.port t with sph := .awaitCp, hd := some [], att := true, acc := true },
        by simp [eStep, eStepR, ESys.setP, upd_self, ha'.1, ha'.2, hh, hs.lt], rfl, rfl⟩
  obtain ⟨p, he1, hp1, hp2⟩ := he1
  refine .cons hf1 _ he1 rfl rfl rfl fun hf2 => ?_
  have hs2 := hs1.setP (p := p) (by rw [hp1]; simp)
  have he2 : eStep c ((S.setP t { S.port t with sph := .awaitCp, more := (S.port t).more + 1, att := true }).setP t p) (.s (.lose t)) =
      some (((S.setP t { S.port t with sph := .awaitCp, more := (S.port t).more + 1, att := true }).setP t p).setP t (p.leave .lost)) := by
    have hg : S.snd.threads[t]? = _ := hfr.get (by rw [hf.len]; exact hs.lt)
    simp [eStep, eStepS, ESys.setP, upd_self, hg, hp1]
  refine .cons hf2 _ he2 rfl rfl rfl fun hf3 => ?_
  exact acc _ hf3 (hs2.setP (by simp [Port.leave])) hfr hl (by simp [ESys.setP, upd_self, Port.leave]) fun _ => by
    simp [ESys.setP, upd_self, Port.leave, hp2]

/-- Connections that were given up disappear. -/
theorem can_clear {t : Nat} : ∀ (k : Nat) (S : ESys), EFine c mb del S → Solo c t S → Free S t → (S.port t).sph = .lost →
    (S.rcv.th t).phase = .accepting → (S.port t).more = k →
    Can c S fun S' => Solo c t S' ∧ Free S' t ∧ (S'.port t).sph = .lost ∧ (S'.rcv.th t).phase = .accepting ∧ (S'.port t).more = 0 := by
  intro k
  induction k with
  | zero => intro S hf hs hfr hp hr hk; exact .here hf ⟨hs, hfr, hp, hr, hk⟩
  | succ k ih =>
    intro S hf hs hfr hp hr hk
    have hatt := ((hf.good.p.loc t).away (.inr (.inl hp))).1
    have he : eStep c S (.v (.vanishMore t)) = some (S.setP t { S.port t with more := k }) := by
      simp [eStep, eStepR, hatt, hk]
    exact .cons hf _ he rfl rfl rfl fun hf1 => ih _ hf1 (hs.setP (by simp [hp])) hfr (by simp [ESys.setP, upd_self, hp]) hr
      (by simp [ESys.setP, upd_self])

/-- Port `t` is connected, everything written to it has been read, and the sender thread is about
to take blocks. -/
structure EReady (c : ECfg) (t : Nat) (S : ESys) : Prop where
  solo : Solo c t S
  free : Free S t
  sph : (S.port t).sph = .sending
  hd : (S.port t).hd = some []
  acc : (S.port t).acc = true
  att : (S.port t).att = true
  more : (S.port t).more = 0
  rcv : (S.rcv.th t).phase = .reading

/-- The threads of port `t` get connected. -/
theorem can_ready {S : ESys} {t : Nat} (hf : EFine c mb del S) (ha : EAlive c t S) : Can c S (EReady c t) := by
  refine (can_solo hf ha).trans hf fun S1 hf1 h1 => ?_
  refine (can_lost hf1 h1.1 h1.2.1).trans hf1 fun S2 hf2 h2 => ?_
  refine (can_apart hf2 h2.1 h2.2.1 (by rw [h2.2.2.2]; exact h1.2.2) h2.2.2.1).trans hf2 fun S3 hf3 h3 => ?_
  refine (can_clear _ S3 hf3 h3.1 h3.2.1 h3.2.2.1 h3.2.2.2 rfl).trans hf3 fun S4 hf4 h4 => ?_
  clear hf1 h1 hf2 h2 hf3 h3 ha hf S S1 S2 S3
  obtain ⟨hs, hfr, hp, hr, hm⟩ := h4
  obtain ⟨b1, b2⟩ := (hf4.good.p.loc t).away (.inr (.inl hp))
  obtain ⟨b3, b4, b5⟩ := (hf4.good.p.loc t).closed (.inl hr)
  have hlt := hs.lt
  have he : eStep c S4 (.s (.connect t)) = some (S4.setP t { S4.port t with sph := .awaitCp, more := 1, att := true }) := by
    simp [eStep, eStepS, hp, hs.lt, hr, hm]
  refine .cons hf4 _ he rfl rfl rfl fun hf5 => ?_
  have hs5 := hs.setP (p := { S4.port t with sph := .awaitCp, more := 1, att := true }) (by simp)
  have he1 : eStep c (S4.setP t { S4.port t with sph := .awaitCp, more := 1, att := true }) (.v (.accept t true)) =
      some ((S4.setP t { S4.port t with sph := .awaitCp, more := 1, att := true }).goR t
        { S4.port t with sph := .awaitCp, hd := some [], acc := true, more := 0, att := true, inbox := [.localCp (S4.port t).cp] }
        { S4.rcv.th t with pending := (S4.rcv.th t).cpIdx, phase := .reading }) := by
    simp [eStep, eStepR, ESys.rcv?, rStep, ESys.setP, ESys.goR, upd_self, hr, hs.lt, Port.reply, b2, Port.cp]
  refine .cons hf5 _ he1 rfl rfl rfl fun hf6 => ?_
  have hs6 := hs5.goR (p := { S4.port t with sph := .awaitCp, hd := some [], acc := true, more := 0, att := true, inbox := [.localCp (S4.port t).cp] })
    (r := { S4.rcv.th t with pending := (S4.rcv.th t).cpIdx, phase := .reading }) (by simp) (by simp) (by simp)
  generalize hS : (S4.setP t { S4.port t with sph := .awaitCp, more := 1, att := true }).goR t
        { S4.port t with sph := .awaitCp, hd := some [], acc := true, more := 0, att := true, inbox := [.localCp (S4.port t).cp] }
        { S4.rcv.th t with pending := (S4.rcv.th t).cpIdx, phase := .reading } = S6 at hf6 hs6
  have q1 : S6.port t = { S4.port t with sph := .awaitCp, hd := some [], acc := true, more := 0, att := true, inbox := [.localCp (S4.port t).cp] } := by
    rw [← hS]; simp [ESys.goR, upd_self]
  have q2 : S6.snd = S4.snd := by rw [← hS]; rfl
  have q3 : (S6.rcv.th t).phase = .reading := by rw [← hS]; simp [ESys.goR, upd_self]
  have hfr6 : Free S6 t := by unfold Free at *; rw [q2]; exact hfr
  have hcp : (S4.port t).cp = (S6.port t).cp := by rw [q1]; rfl
  have e1 : (S6.port t).sph = .awaitCp := by rw [q1]
  have e2 : (S6.port t).inbox = [.localCp (S6.port t).cp] := by rw [← hcp, q1]
  have hrf := own_not_refused hf6 hfr6 false
  have hgood : GoodCp S6.landed (S6.port t).cp := (hf6.good.p.thr t).s3 _ (by rw [e2]; simp)
  have hl6 : t < S6.snd.threads.length := by rw [hf6.len]; exact hlt
  obtain ⟨s', hs'⟩ := applyCp_noFault (g := false) hf6.good.pot (some_of_lt hl6) hgood.nonneg
  have huse := hs6.alive.use hf6
  have h1 : sStep S6.snd (.localCp t (S6.port t).cp) = .ok s' := by
    simp only [sStep, some_of_lt hl6, hfr6.1, hfr6.2, huse]; exact hs'
  obtain ⟨H', lb, h2, -, h3, -⟩ := applyCp_shape hs'
  have hthr : s'.thr = upd S6.snd.thr t { S6.snd.thr t with hist := H' } := thr_set (some_of_lt hl6) (by rw [h2]; rfl)
  have he2 : eStep c S6 (.s (.readCp t)) = some { S6.setP t { S6.port t with sph := .sending, inbox := [], idle := false } with snd := s' } := by
    simp [eStep, eStepS, e1, e2, hrf, ESys.snd?, ESys.setP, h1]
  refine .one hf6 _ he2 rfl rfl (by show s'.q.failed = _; rw [h2]; rfl) ⟨hs6.act rfl ?_ ?_, ?_, ?_, ?_, ?_, ?_, ?_, q3⟩
  · simp [ESys.setP, upd_self]
  · intro v hv; show s'.thr v = _; rw [hthr, upd_apply, if_neg hv]
  · show (s'.thr t).opening = none ∧ (s'.thr t).cur = none
    rw [hthr, upd_self]; exact hfr6
  · simp [ESys.setP, upd_self]
  all_goals
    simp only [ESys.setP, upd_self]
    rw [q1]

/-! ### Everything is sent -/

/-- What a step of sender thread `t` leaves alone. -/
structure SAct (t : Nat) (S S' : ESys) : Prop where
  rcv : S'.rcv = S.rcv
  ref : S'.refused = S.refused
  sil : S'.silent = S.silent
  oth : ∀ v, v ≠ t → S'.snd.thr v = S.snd.thr v
  fail : S'.snd.q.failed = S.snd.q.failed
  init : S'.snd.q.initFinished = S.snd.q.initFinished

/-- One block is sent and received. -/
theorem can_sendOne {S : ESys} {t : Nat} (hf : EFine c mb del S) (hr : EReady c t S) (hq : S.snd.q.queue ≠ []) :
    Can c S fun S' => EReady c t S' ∧ S'.snd.q.queue.length + 1 = S.snd.q.queue.length ∧
      S'.snd.q.initFinished = S.snd.q.initFinished ∧ (S'.rcv.th t).pending = (S.rcv.th t).pending ∧ S'.rcv.cps = S.rcv.cps := by
  have hs := hr.solo
  have hl : t < S.snd.threads.length := by rw [hf.len]; exact hs.lt
  have hget := hr.free.get hl
  have hgl := hs.alive.glob hf
  have hus := hs.alive.use hf
  obtain ⟨x, hx⟩ := C17_top_exists _ hq
  have hxm : x ∈ S.snd.q.queue := by
    unfold IsTop at hx
    simp only [Bool.and_eq_true, List.contains_eq_mem, decide_eq_true_eq] at hx
    exact hx.1
  have hwr : (S.port t).wrote = none := by
    cases hw : (S.port t).wrote with
    | none => rfl
    | some n =>
      have := (hf.good.p.loc t).wrote (by simp [hw])
      rw [hr.free.2] at this; cases this
  generalize hH : (S.snd.thr t).hist = H at hget hgl hus
  -- take a block
  have s1 : ∃ S1, eStep c S (.s (.pop t x)) = some S1 ∧ SAct t S S1 ∧ S1.port t = S.port t ∧
      S1.snd.threads[t]? = some ⟨H, some x, none⟩ ∧ S1.snd.q.queue.length + 1 = S.snd.q.queue.length := by
    have h1 : sStep S.snd (.pop t x) = .ok { S.snd with
        q := { S.snd.q with queue := S.snd.q.queue.erase x }
        threads := S.snd.threads.set t ⟨H, some x, none⟩ } := by
      simp [sStep, hget, hus, popSource, hx]
    refine ⟨{ S with began := true, snd := { S.snd with q := { S.snd.q with queue := S.snd.q.queue.erase x }, threads := S.snd.threads.set t ⟨H, some x, none⟩ } }, by simp [eStep, eStepS, hr.sph, ESys.snd?, h1],
      ⟨rfl, rfl, rfl, fun v hv => ?_, rfl, rfl⟩, rfl, by simp [hl], ?_⟩
    · rw [thr_set (s := S.snd) hget rfl, upd_apply, if_neg hv]
    · have := List.length_erase_of_mem hxm
      have := List.length_pos_of_mem hxm
      show (S.snd.q.queue.erase x).length + 1 = _
      omega
  obtain ⟨S1, e1, a1, p1, g1, l1⟩ := s1
  refine .cons hf _ e1 a1.ref a1.sil a1.fail fun hf1 => ?_
  -- open it
  have hl1 : t < S1.snd.threads.length := by rw [hf1.len]; exact hs.lt
  have s2 : ∃ S2, eStep c S1 (.s (.openOk t)) = some S2 ∧ SAct t S1 S2 ∧ S2.port t = S1.port t ∧
      S2.snd.threads[t]? = some ⟨H, none, some (openedSource x)⟩ ∧ S2.snd.q.queue = S1.snd.q.queue := by
    refine ⟨{ S1 with snd := { S1.snd with q := { S1.snd.q with deq := S1.snd.q.deq + 1 }, threads := S1.snd.threads.set t ⟨H, none, some (openedSource x)⟩ } }, by simp [eStep, eStepS, ESys.snd?, sStep, g1],
      ⟨rfl, rfl, rfl, fun v hv => ?_, rfl, rfl⟩, rfl, by simp [hl1], rfl⟩
    rw [thr_set (s := S1.snd) g1 rfl, upd_apply, if_neg hv]
  obtain ⟨S2, e2, a2, p2, g2, l2⟩ := s2
  refine .cons hf1 _ e2 a2.ref a2.sil a2.fail fun hf2 => ?_
  generalize openedSource x = y at g2
  have hl2 : t < S2.snd.threads.length := by rw [hf2.len]; exact hs.lt
  have hy : 0 ≤ y.size := hf2.zero.sized y (.inr ⟨_, List.mem_of_getElem? g2, by simp [SThread.all]⟩)
  have hp2 : S2.port t = S.port t := p2.trans p1
  -- write it
  have s3 : eStep c S2 (.s (.write t y.size)) = some (S2.setP t { S.port t with hd := some [.block y.wire y.size], wrote := some y.size }) := by
    simp [eStep, eStepS, g2, hp2, hr.sph, hwr, hy, Port.put, hr.att, hr.hd]
  refine .cons hf2 _ s3 rfl rfl rfl fun hf3 => ?_
  -- the block is done
  have s4 : ∃ S4, eStep c (S2.setP t { S.port t with hd := some [.block y.wire y.size], wrote := some y.size }) (.s (.sent t (.ok 0))) = some S4 ∧
      SAct t S2 S4 ∧ S4.port t = { S.port t with hd := some [.block y.wire y.size] } ∧
      (S4.snd.thr t).opening = none ∧ (S4.snd.thr t).cur = none ∧ S4.snd.q.queue = S2.snd.q.queue := by
    have h1 : ∃ th, sStep S2.snd (.sent t (.ok 0)) = .ok { S2.snd with threads := S2.snd.threads.set t th } ∧ th.opening = none ∧ th.cur = none := by
      refine ⟨⟨{ H with stats := H.stats.add (sendStats y (.ok 0)), history := H.history ++ [{ y with stats := y.stats.add (sendStats y (.ok 0)) }] }, none, none⟩, ?_, rfl, rfl⟩
      simp only [sStep, g2, addSource, hgl, Bool.false_eq_true, if_false, giveBack, List.map_nil, returnToQueue, List.append_nil]
    obtain ⟨th, h1, h2, h3⟩ := h1
    refine ⟨{ S2.setP t { S.port t with hd := some [.block y.wire y.size] } with snd := { S2.snd with threads := S2.snd.threads.set t th } }, ?_,
      ⟨rfl, rfl, rfl, fun v hv => ?_, rfl, rfl⟩, by simp [ESys.setP, upd_self], ?_, ?_, rfl⟩
    · have hw : ({ S.port t with hd := some [.block y.wire y.size], wrote := none } : Port) = { S.port t with hd := some [.block y.wire y.size] } := by
        rw [← hwr]
      simp [eStep, eStepS, ESys.setP, g2, upd_self, hgl, ESys.snd?, h1, hw]
      funext v; simp only [upd_apply]; split <;> rfl
    · rw [thr_set (s := S2.snd) g2 rfl, upd_apply, if_neg hv]
    · rw [thr_set (s := S2.snd) g2 rfl, upd_self]; exact h2
    · rw [thr_set (s := S2.snd) g2 rfl, upd_self]; exact h3
  obtain ⟨S4, e4, a4, p4, g4, g5, l4⟩ := s4
  refine .cons hf3 _ e4 a4.ref a4.sil a4.fail fun hf4 => ?_
  have hrcv : S4.rcv = S.rcv := a4.rcv.trans (a2.rcv.trans a1.rcv)
  have hs4 : Solo c t S4 := ((hs.act a1.rcv (by rw [p1, hr.sph]; simp) a1.oth).act a2.rcv (by rw [hp2, hr.sph]; simp) a2.oth).act
    a4.rcv (by rw [p4]; simp [hr.sph]) a4.oth
  -- it is received
  have hph : (S4.rcv.th t).phase = .reading := by rw [hrcv]; exact hr.rcv
  have s5 : ∃ S5 p r, eStep c S4 (.v (.recv t)) = some S5 ∧ S5.snd = S4.snd ∧ S5.refused = S4.refused ∧ S5.silent = S4.silent ∧
      S5.port = upd S4.port t p ∧ S5.rcv.th = upd S4.rcv.th t r ∧ S5.rcv.cps = S4.rcv.cps ∧ p.sph = .sending ∧ p.hd = some [] ∧
      p.acc = true ∧ p.att = true ∧ p.more = 0 ∧ r.phase = .reading ∧ r.pending = (S4.rcv.th t).pending := by
    have hacc : (S4.port t).acc = true := by rw [p4]; exact hr.acc
    have hhd : (S4.port t).hd = some [.block y.wire y.size] := by rw [p4]
    have hsz : y.size = y.wire.size := rfl
    obtain ⟨p, hp, k1, k2, k3, k4, k5⟩ : ∃ p, (if c.tagged && !c.footer then
        ({ S4.port t with hd := some [], last := none, unver := (S4.port t).unver ++ [y.wire] } : Port)
        else { S4.port t with hd := some [], last := none, counted := (S4.port t).counted ++ [y.wire] }) = p ∧
        p.sph = .sending ∧ p.hd = some [] ∧ p.acc = true ∧ p.att = true ∧ p.more = 0 := by
      refine ⟨_, rfl, ?_⟩
      split <;> simp [p4, hr.sph, hr.acc, hr.att, hr.more]
    refine ⟨{ S4.goR t p { S4.rcv.th t with cpIdx := (S4.rcv.th t).pending } with landed := S4.landed ++
      [⟨y.wire.seqId, y.wire.offset, y.wire.offset + y.size⟩] }, p, { S4.rcv.th t with cpIdx := (S4.rcv.th t).pending }, ?_,
      rfl, rfl, rfl, rfl, rfl, rfl, k1, k2, k3, k4, k5, hph, rfl⟩
    simp only [eStep, eStepR, hacc, hhd, ESys.rcv?, rStep, ESys.setP]
    simp only [hacc] at hp
    rw [if_pos hsz, if_pos ⟨hs.lt, hph⟩, hp]
    rfl
  obtain ⟨S5, p, r, e5, b1, b2, b3, b4, b5, b6, b7, b8, b9, b10, b11, b12, b13⟩ := s5
  have hport : S5.port t = p := by rw [b4, upd_self]
  have hth : S5.rcv.th t = r := by rw [b5, upd_self]
  refine .one hf4 _ e5 b2 b3 (by rw [b1]) ⟨⟨hs4.actR b1 ?_ ?_ ?_ ?_, ?_, ?_, ?_, ?_, ?_, ?_, ?_⟩, ?_, ?_, ?_, ?_⟩
  · rw [hport, b7]; simp
  · rw [hth, b12]; simp
  · rw [hth, b12]; simp
  · intro v hv; rw [b5, upd_apply, if_neg hv]
  · unfold Free; rw [b1]; exact ⟨g4, g5⟩
  · rw [hport]; exact b7
  · rw [hport]; exact b8
  · rw [hport]; exact b9
  · rw [hport]; exact b10
  · rw [hport]; exact b11
  · rw [hth]; exact b12
  · rw [b1, l4, l2]; exact l1
  · rw [b1, a4.init, a2.init, a1.init]
  · rw [hth, b13, hrcv]
  · rw [b6, hrcv]

/-- All blocks are sent and received, those also that are found now. -/
theorem can_sendAll {t : Nat} : ∀ (k : Nat) (S : ESys), EFine c mb del S → EReady c t S → S.snd.q.queue.length = k →
    S.snd.q.initFinished = true →
    Can c S fun S' => EReady c t S' ∧ S'.snd.q.queue = [] ∧ S'.snd.q.initFinished = true ∧
      (S'.rcv.th t).pending = (S.rcv.th t).pending ∧ S'.rcv.cps = S.rcv.cps := by
  intro k
  induction k with
  | zero => intro S hf hr hk hi; exact .here hf ⟨hr, List.length_eq_zero_iff.1 hk, hi, rfl, rfl⟩
  | succ k ih =>
    intro S hf hr hk hi
    have hq : S.snd.q.queue ≠ [] := by intro h; rw [h] at hk; simp at hk
    refine (can_sendOne hf hr hq).trans hf fun S1 hf1 h1 => ?_
    obtain ⟨a1, a2, a3, a4, a5⟩ := h1
    refine (ih S1 hf1 a1 (by omega) (a3.trans hi)).mono fun S2 h2 => ?_
    obtain ⟨b1, b2, b3, b4, b5⟩ := h2
    exact ⟨b1, b2, b3, b4.trans a4, b5.trans a5⟩

/-- The search for files ends. -/
theorem can_discover {S : ESys} {t : Nat} (hf : EFine c mb del S) (hr : EReady c t S) :
    Can c S fun S' => EReady c t S' ∧ S'.snd.q.initFinished = true := by
  by_cases hi : S.snd.q.initFinished = true
  · exact .here hf ⟨hr, hi⟩
  have hfd : ∀ q : QState, (finishDiscovery q).1.failed = q.failed ∧ (finishDiscovery q).1.initFinished = true := by
    intro q
    unfold finishDiscovery enqueueDeletions
    split
    · exact ⟨rfl, rfl⟩
    · split <;> exact ⟨rfl, rfl⟩
  obtain ⟨s', h1, h2, h3, h4⟩ : ∃ s', sStep S.snd .finishDiscovery = .ok s' ∧ s'.threads = S.snd.threads ∧
      s'.q.failed = S.snd.q.failed ∧ s'.q.initFinished = true := by
    refine ⟨{ S.snd with q := (finishDiscovery S.snd.q).1, created := S.snd.created ++ (finishDiscovery S.snd.q).2 }, ?_, rfl,
      (hfd _).1, (hfd _).2⟩
    simp only [sStep]
    rw [if_neg hi]
  have he : eStep c S (.s .finishDiscovery) = some { S with snd := s' } := by simp [eStep, eStepS, ESys.snd?, h1]
  have hthr := thr_same h2
  refine .one hf _ he rfl rfl h3 ⟨⟨hr.solo.act rfl hr.solo.snd fun v _ => by rw [hthr], ?_, hr.sph, hr.hd, hr.acc, hr.att, hr.more, hr.rcv⟩, h4⟩
  have := hr.free
  unfold Free at *
  rw [hthr]; exact this

/-- The sender thread waits for a command, the receiver thread for the end. -/
structure Waiting (c : ECfg) (t : Nat) (S : ESys) : Prop where
  solo : Solo c t S
  free : Free S t
  sph : (S.port t).sph = .awaitCmd
  hd : (S.port t).hd = some []
  acc : (S.port t).acc = true
  att : (S.port t).att = true
  more : (S.port t).more = 0
  inbox : (S.port t).inbox = []
  rcv : (S.rcv.th t).phase = .waiting
  init : S.snd.q.initFinished = true

theorem can_wait {S : ESys} {t : Nat} (hf : EFine c mb del S) (hr : EReady c t S) (hi : S.snd.q.initFinished = true) :
    Can c S fun S' => Waiting c t S' ∧ (S'.rcv.th t).cpIdx = (S.rcv.th t).pending ∧ S'.rcv.cps = S.rcv.cps := by
  refine (can_sendAll _ S hf hr rfl hi).trans hf fun S1 hf1 h1 => ?_
  obtain ⟨r1, q1, i1, pe, cp⟩ := h1
  rw [← pe, ← cp]
  clear hf hr hi pe cp S
  have hs := r1.solo
  have hl : t < S1.snd.threads.length := by rw [hf1.len]; exact hs.lt
  have hget := r1.free.get hl
  have hin := ((hf1.good.p.loc t).send (.inl r1.sph)).2
  have he : eStep c S1 (.s (.sendDone t)) = some { S1.setP t { S1.port t with sph := .awaitCmd, idle := true, hd := some [.done] } with began := true } := by
    simp [eStep, eStepS, hget, r1.sph, q1, i1, Port.put, r1.att, r1.hd]
  refine .cons hf1 _ he rfl rfl rfl fun hf2 => ?_
  have hs2 : Solo c t { S1.setP t { S1.port t with sph := .awaitCmd, idle := true, hd := some [.done] } with began := true } :=
    hs.act rfl (by simp [ESys.setP, upd_self]) fun _ _ => rfl
  generalize hS : ({ S1.setP t { S1.port t with sph := .awaitCmd, idle := true, hd := some [.done] } with began := true } : ESys) = S2 at hf2 hs2
  have p2 : S2.port t = { S1.port t with sph := .awaitCmd, idle := true, hd := some [.done] } := by rw [← hS]; simp [ESys.setP, upd_self]
  have n2 : S2.snd = S1.snd := by rw [← hS]; rfl
  have v2 : S2.rcv = S1.rcv := by rw [← hS]; rfl
  have ph2 : (S2.rcv.th t).phase = .reading := by rw [v2]; exact r1.rcv
  have e3 : eStep c S2 (.v (.recvDone t)) = some (S2.goR t { S2.port t with hd := some [] }
      { S2.rcv.th t with cpIdx := (S2.rcv.th t).pending, phase := .toWait }) := by
    simp [eStep, eStepR, ESys.rcv?, rStep, ESys.setP, ESys.goR, hs.lt, ph2, p2, r1.acc]
  refine .cons hf2 _ e3 rfl rfl rfl fun hf3 => ?_
  have hs3 := hs2.goR (p := { S2.port t with hd := some [] })
    (r := { S2.rcv.th t with cpIdx := (S2.rcv.th t).pending, phase := .toWait }) (by simp [p2]) (by simp) (by simp)
  have e4 : eStep c (S2.goR t { S2.port t with hd := some [] } { S2.rcv.th t with cpIdx := (S2.rcv.th t).pending, phase := .toWait })
      (.v (.markWaiting t)) = some (S2.goR t { S2.port t with hd := some [] }
      { S2.rcv.th t with cpIdx := (S2.rcv.th t).pending, phase := .waiting, mark := .waiting }) := by
    simp [eStep, eStepR, ESys.rcv?, rStep, ESys.goR, hs.lt, upd_self]
    funext v; simp only [upd_apply]; split <;> rfl
  refine .one hf3 _ e4 rfl rfl rfl ⟨⟨hs2.goR (by simp [p2]) (by simp) (by simp), ?_, ?_, ?_, ?_, ?_, ?_, ?_, ?_, ?_⟩, ?_, ?_⟩
  · show (S2.snd.thr t).opening = none ∧ (S2.snd.thr t).cur = none
    rw [n2]; exact r1.free
  · simp [ESys.goR, upd_self, p2]
  · simp [ESys.goR, upd_self]
  · simp [ESys.goR, upd_self, p2, r1.acc]
  · simp [ESys.goR, upd_self, p2, r1.att]
  · simp [ESys.goR, upd_self, p2, r1.more]
  · simp [ESys.goR, upd_self, p2, hin]
  · simp [ESys.goR, upd_self]
  · show S2.snd.q.initFinished = true
    rw [n2]; exact i1
  · simp [ESys.goR, upd_self, v2]
  · show S2.rcv.cps = _
    rw [v2]

/-- The receiver thread tells of failed threads, and the sender thread takes back what they had. -/
theorem can_tell {S : ESys} {t : Nat} (hf : EFine c mb del S) (hw : Waiting c t S) (hc : (S.rcv.th t).cpIdx < S.rcv.cps.length) :
    Can c S fun S' => EReady c t S' ∧ S'.snd.q.initFinished = true ∧ (S'.rcv.th t).pending = S'.rcv.cps.length := by
  have hs := hw.solo
  have hlk := hs.unlocked hf (by rw [hw.rcv]; rfl)
  have e1 : eStep c S (.v (.look t)) = some { S with rcv := { S.rcv with
      th := upd S.rcv.th t { S.rcv.th t with newCps := S.rcv.cps.length - (S.rcv.th t).cpIdx, phase := .found }, lock := some t } } := by
    simp [eStep, eStepR, ESys.rcv?, rStep, hs.lt, hw.rcv, hlk, hc]
  refine .cons hf _ e1 rfl rfl rfl fun hf1 => ?_
  have e2 : eStep c { S with rcv := { S.rcv with
      th := upd S.rcv.th t { S.rcv.th t with newCps := S.rcv.cps.length - (S.rcv.th t).cpIdx, phase := .found }, lock := some t } }
      (.v (.resume t)) = some (S.goR t (S.port t)
        { S.rcv.th t with newCps := S.rcv.cps.length - (S.rcv.th t).cpIdx, mark := .running, phase := .sendGlobal }) := by
    simp [eStep, eStepR, ESys.rcv?, rStep, hs.lt, upd_self, ESys.goR, upd_same, hlk]
    funext v; simp only [upd_apply]; split <;> rfl
  refine .cons hf1 _ e2 rfl rfl rfl fun hf2 => ?_
  have hs2 := hs.goR (p := S.port t) (r := { S.rcv.th t with newCps := S.rcv.cps.length - (S.rcv.th t).cpIdx, mark := .running, phase := .sendGlobal })
    (by simp [hw.sph]) (by simp) (by simp)
  obtain ⟨l, hl⟩ : ∃ l, ((S.rcv.cps.drop (S.rcv.th t).cpIdx).take (S.rcv.cps.length - (S.rcv.th t).cpIdx)).map (fun u => (u, S.cpv u)) = l := ⟨_, rfl⟩
  have e3 : eStep c (S.goR t (S.port t) { S.rcv.th t with newCps := S.rcv.cps.length - (S.rcv.th t).cpIdx, mark := .running, phase := .sendGlobal })
      (.v (.sendGlobal t true)) = some (S.goR t { S.port t with inbox := [.err l] }
        { S.rcv.th t with newCps := S.rcv.cps.length - (S.rcv.th t).cpIdx, mark := .running, pending := S.rcv.cps.length, phase := .reading }) := by
    have hadd : (S.rcv.th t).cpIdx + (S.rcv.cps.length - (S.rcv.th t).cpIdx) = S.rcv.cps.length := by omega
    simp only [eStep, eStepR, ESys.rcv?, rStep, ESys.setP, ESys.goR, upd_self, hl]
    simp [hs.lt, Port.reply, hw.att, hw.more, hw.inbox, hadd]
    constructor <;> funext v <;> simp only [upd_apply] <;> split <;> rfl
  refine .cons hf2 _ e3 rfl rfl rfl fun hf3 => ?_
  have hs3 := hs.goR (p := { S.port t with inbox := [.err l] })
    (r := { S.rcv.th t with newCps := S.rcv.cps.length - (S.rcv.th t).cpIdx, mark := .running, pending := S.rcv.cps.length, phase := .reading })
    (by simp [hw.sph]) (by simp) (by simp)
  generalize hS : S.goR t { S.port t with inbox := [.err l] }
    { S.rcv.th t with newCps := S.rcv.cps.length - (S.rcv.th t).cpIdx, mark := .running, pending := S.rcv.cps.length, phase := .reading } = S3 at hf3 hs3
  have p3 : S3.port t = { S.port t with inbox := [.err l] } := by rw [← hS]; simp [ESys.goR, upd_self]
  have n3 : S3.snd = S.snd := by rw [← hS]; rfl
  have t3 : S3.rcv.th t = { S.rcv.th t with newCps := S.rcv.cps.length - (S.rcv.th t).cpIdx, mark := .running, pending := S.rcv.cps.length, phase := .reading } := by
    rw [← hS]; simp [ESys.goR, upd_self]
  have c3 : S3.rcv.cps = S.rcv.cps := by rw [← hS]; rfl
  have hl3 : t < S3.snd.threads.length := by rw [hf3.len]; exact hs.lt
  have e4 : eStep c S3 (.s (.readErr t)) = some { S3.setP t { S3.port t with sph := .processing l false, inbox := [], idle := false } with
      snd := { S3.snd with threads := S3.snd.threads.set t { S3.snd.thr t with hist := markAll (S3.snd.thr t).hist } } } := by
    have q1 : (S3.port t).sph = .awaitCmd := by rw [p3]; exact hw.sph
    have q2 : (S3.port t).inbox = [.err l] := by rw [p3]
    simp [eStep, eStepS, q1, q2, ESys.snd?, ESys.setP, sStep, some_of_lt hl3]
  refine .cons hf3 _ e4 rfl rfl rfl fun hf4 => ?_
  have hthr := thr_set (s := S3.snd) (s' := { S3.snd with threads := S3.snd.threads.set t { S3.snd.thr t with hist := markAll (S3.snd.thr t).hist } })
    (some_of_lt hl3) rfl
  have hs4 : Solo c t { S3.setP t { S3.port t with sph := .processing l false, inbox := [], idle := false } with
      snd := { S3.snd with threads := S3.snd.threads.set t { S3.snd.thr t with hist := markAll (S3.snd.thr t).hist } } } :=
    hs3.act rfl (by simp [ESys.setP, upd_self]) fun v hv => by rw [hthr, upd_apply, if_neg hv]
  generalize hS4 : ({ S3.setP t { S3.port t with sph := .processing l false, inbox := [], idle := false } with
      snd := { S3.snd with threads := S3.snd.threads.set t { S3.snd.thr t with hist := markAll (S3.snd.thr t).hist } } } : ESys) = S4 at hf4 hs4
  have p4 : S4.port t = { S3.port t with sph := .processing l false, inbox := [], idle := false } := by rw [← hS4]; simp [ESys.setP, upd_self]
  have fr4 : Free S4 t := by
    rw [← hS4]
    unfold Free
    rw [hthr, upd_self]
    show (S3.snd.thr t).opening = none ∧ (S3.snd.thr t).cur = none
    rw [n3]; exact hw.free
  have v4 : S4.rcv = S3.rcv := by rw [← hS4]; rfl
  have i4 : S4.snd.q.initFinished = true := by rw [← hS4]; show S3.snd.q.initFinished = true; rw [n3]; exact hw.init
  refine (can_list l false S4 hf4 hs4 fr4 (by rw [p4])).mono fun S5 h5 => ?_
  obtain ⟨a1, a2, a3, a4, a5, a6⟩ := h5
  refine ⟨⟨a1, a2, ?_, ?_, ?_, ?_, ?_, ?_⟩, ?_, ?_⟩
  · rw [a4]
  · rw [a4, p4, p3]; exact hw.hd
  · rw [a4, p4, p3]; exact hw.acc
  · rw [a4, p4, p3]; exact hw.att
  · rw [a4, p4, p3]; exact hw.more
  · rw [a3, v4, t3]
  · rw [a6]; exact i4
  · rw [a3, v4, t3, c3]

/-- Both threads end well. -/
theorem can_done {S : ESys} {t : Nat} (hf : EFine c mb del S) (hw : Waiting c t S) (hc : S.rcv.cps.length ≤ (S.rcv.th t).cpIdx) :
    Can c S fun S' => (S'.port t).sph = .ended true ∧ (∀ u, u < c.n → (S'.hist u).inUse = false) ∧
      ∀ u, u < c.n → (S'.rcv.th u).phase = .ended := by
  have hs := hw.solo
  have hlk := hs.unlocked hf (by rw [hw.rcv]; rfl)
  have e1 : eStep c S (.v (.look t)) = some { S with rcv := { S.rcv with
      th := upd S.rcv.th t { S.rcv.th t with phase := .nothing }, lock := some t } } := by
    simp [eStep, eStepR, ESys.rcv?, rStep, hs.lt, hw.rcv, hlk, Nat.not_lt.2 hc]
  refine .cons hf _ e1 rfl rfl rfl fun hf1 => ?_
  have hany : ((List.range c.n).any fun u => u != t && (upd S.rcv.th t { S.rcv.th t with phase := .nothing } u).mark == .running) = false := by
    rw [List.any_eq_false]
    intro u hu
    have hu := List.mem_range.1 hu
    by_cases hut : u = t
    · subst hut; simp
    · rw [upd_apply, if_neg hut, (hf.rgood.mark u).2 (hs.rend u hu hut)]
      simp
  have e2 : eStep c { S with rcv := { S.rcv with th := upd S.rcv.th t { S.rcv.th t with phase := .nothing }, lock := some t } }
      (.v (.query t)) = some { S with rcv := { S.rcv with th := upd S.rcv.th t { S.rcv.th t with phase := .decided }, lock := some t }, dec := true } := by
    simp only [eStep, eStepR, ESys.rcv?, rStep]
    rw [if_pos ⟨hs.lt, by rw [upd_self]⟩, hany]
    simp [upd_self]
    funext v; simp only [upd_apply]; split <;> rfl
  refine .cons hf1 _ e2 rfl rfl rfl fun hf2 => ?_
  have e3 : eStep c { S with rcv := { S.rcv with th := upd S.rcv.th t { S.rcv.th t with phase := .decided }, lock := some t }, dec := true }
      (.v (.finish t)) = some { S with rcv := { S.rcv with th := upd S.rcv.th t { S.rcv.th t with mark := .finished, phase := .sendDone }, lock := none }, dec := true } := by
    simp [eStep, eStepR, ESys.rcv?, rStep, hs.lt, upd_self]
    funext v; simp only [upd_apply]; split <;> rfl
  refine .cons hf2 _ e3 rfl rfl rfl fun hf3 => ?_
  generalize hS : ({ S with rcv := { S.rcv with th := upd S.rcv.th t { S.rcv.th t with mark := .finished, phase := .sendDone }, lock := none }, dec := true } : ESys) = S3 at hf3
  have p3 : S3.port t = S.port t := by rw [← hS]
  have n3 : S3.snd = S.snd := by rw [← hS]
  have t3 : (S3.rcv.th t).phase = .sendDone := by rw [← hS]; simp [upd_self]
  have o3 : ∀ u, u ≠ t → S3.rcv.th u = S.rcv.th u := by intro u hu; rw [← hS]; simp [upd_apply, hu]
  have e4 : eStep c S3 (.v (.writeDone t)) = some (S3.setP t { S.port t with inbox := [.done] }) := by
    simp [eStep, eStepR, hs.lt, t3, p3, Port.reply, hw.att, hw.more, hw.inbox]
  refine .cons hf3 _ e4 rfl rfl rfl fun hf4 => ?_
  have hl3 : t < S3.snd.threads.length := by rw [hf3.len]; exact hs.lt
  have e5 : eStep c (S3.setP t { S.port t with inbox := [.done] }) (.s (.readDone t)) = some { S3.setP t { S.port t with sph := .gotDone, inbox := [] } with
      snd := { S3.snd with threads := S3.snd.threads.set t { S3.snd.thr t with hist := markAll (S3.snd.thr t).hist } } } := by
    simp [eStep, eStepS, ESys.setP, upd_self, hw.sph, ESys.snd?, sStep, some_of_lt hl3]
    funext v; simp only [upd_apply]; split <;> rfl
  refine .cons hf4 _ e5 rfl rfl rfl fun hf5 => ?_
  have hthr := thr_set (s := S3.snd) (s' := { S3.snd with threads := S3.snd.threads.set t { S3.snd.thr t with hist := markAll (S3.snd.thr t).hist } })
    (some_of_lt hl3) rfl
  generalize hS5 : ({ S3.setP t { S.port t with sph := .gotDone, inbox := [] } with
      snd := { S3.snd with threads := S3.snd.threads.set t { S3.snd.thr t with hist := markAll (S3.snd.thr t).hist } } } : ESys) = S5 at hf5
  have p5 : S5.port t = { S.port t with sph := .gotDone, inbox := [] } := by rw [← hS5]; simp [ESys.setP, upd_self]
  have v5 : S5.rcv = S3.rcv := by rw [← hS5]; rfl
  have n5 : S5.snd.thr = upd S3.snd.thr t { S3.snd.thr t with hist := markAll (S3.snd.thr t).hist } := by rw [← hS5]; exact hthr
  have t5 : (S5.rcv.th t).phase = .sendDone := by rw [v5]; exact t3
  have e6 : eStep c S5 (.v (.doneSent t true)) = some (S5.goR t { S5.port t with counted := (S5.port t).counted ++ (S5.port t).unver, unver := [] }
      { S5.rcv.th t with mark := .finished, phase := .ended }) := by
    simp [eStep, eStepR, ESys.rcv?, rStep, ESys.setP, ESys.goR, hs.lt, t5]
  refine .cons hf5 _ e6 rfl rfl rfl fun hf6 => ?_
  generalize hS6 : S5.goR t { S5.port t with counted := (S5.port t).counted ++ (S5.port t).unver, unver := [] }
      { S5.rcv.th t with mark := .finished, phase := .ended } = S6 at hf6
  have p6 : (S6.port t).sph = .gotDone := by rw [← hS6]; simp [ESys.goR, upd_self, p5]
  have n6 : S6.snd = S5.snd := by rw [← hS6]; rfl
  have e7 : eStep c S6 (.s (.doneEnd t true)) = some (S6.setP t ((S6.port t).leave (.ended true))) := by
    simp [eStep, eStepS, p6]
  refine .cons hf6 _ e7 rfl rfl rfl fun hf7 => ?_
  have hl6 : t < S6.snd.threads.length := by rw [hf6.len]; exact hs.lt
  have hfr : (S6.snd.thr t).opening = none ∧ (S6.snd.thr t).cur = none := by
    rw [n6, n5, upd_self, n3]; exact hw.free
  have e8 : eStep c (S6.setP t ((S6.port t).leave (.ended true))) (.s (.exit t)) = some { S6.setP t ((S6.port t).leave (.ended true)) with
      snd := { S6.snd with threads := S6.snd.threads.set t { S6.snd.thr t with hist := { (S6.snd.thr t).hist with inUse := false } } } } := by
    simp [eStep, eStepS, ESys.setP, upd_self, Port.leave, ESys.snd?, sStep, some_of_lt hl6, hfr.1, hfr.2]
  refine .one hf7 _ e8 rfl rfl rfl ⟨by simp [ESys.setP, upd_self, Port.leave], fun u hu => ?_, fun u hu => ?_⟩
  · rw [hist_eq, thr_set (s := S6.snd) (some_of_lt hl6) rfl, upd_apply]
    split
    · rfl
    · rename_i hut
      rw [n6, n5, upd_apply, if_neg hut, n3, ← hist_eq]
      exact hs.use u hu hut
  · show (S6.rcv.th u).phase = .ended
    rw [← hS6]
    simp only [ESys.goR, upd_apply]
    split
    · rfl
    · rename_i hut
      rw [v5, o3 u hut]; exact hs.rend u hu hut

/-- The transfer can be completed. -/
theorem can_complete {S : ESys} {t : Nat} (hf : EFine c mb del S) (ha : EAlive c t S) :
    Can c S fun S' => (S'.port t).sph = .ended true ∧ (∀ u, u < c.n → (S'.hist u).inUse = false) ∧
      ∀ u, u < c.n → (S'.rcv.th u).phase = .ended := by
  refine (can_ready hf ha).trans hf fun S1 hf1 h1 => ?_
  refine (can_discover hf1 h1).trans hf1 fun S2 hf2 h2 => ?_
  refine (can_wait hf2 h2.1 h2.2).trans hf2 fun S3 hf3 h3 => ?_
  by_cases hc : (S3.rcv.th t).cpIdx < S3.rcv.cps.length
  · refine (can_tell hf3 h3.1 hc).trans hf3 fun S4 hf4 h4 => ?_
    refine (can_wait hf4 h4.1 h4.2.1).trans hf4 fun S5 hf5 h5 => ?_
    exact can_done hf5 h5.1 (by rw [h5.2.1, h5.2.2, h4.2.2]; exact Nat.le_refl _)
  · exact can_done hf3 h3.1 (Nat.not_lt.1 hc)

end Wdt
