import Verif.Lemmas.EndToEndQueue
/-
Executions of a whole transfer: what a receiver thread's decision that the transfer is complete
implies for the sender's blocks.
-/
namespace Wdt

/-- Is what is left of a block at the receiver? -/
def Cov (L : List Landed) (x : Source) : Prop :=
  (∃ l ∈ L, l.seqId = x.seqId ∧ l.hi = x.offset + x.size) ∧
    ∀ p, x.offset ≤ p → p < x.offset + x.size → hasByte L x.seqId p

theorem Cov.mono {L L' : List Landed} (h : L ⊆ L') {x : Source} (hc : Cov L x) : Cov L' x := by
  obtain ⟨⟨l, h1, h2⟩, h3⟩ := hc
  exact ⟨⟨l, h h1, h2⟩, fun p a b => (h3 p a b).mono h⟩

theorem Cov.stable (L : List Landed) : Stable (Cov L) := by
  intro x y hk ho hx
  simp only [Source.key, Prod.mk.injEq] at hk
  obtain ⟨h1, h2⟩ := hx
  rw [← hk.2.1] at h1 h2
  refine ⟨?_, fun p a b => h2 p (by omega) (by omega)⟩
  rw [hk.2.2.2]; exact h1

theorem Cov.ofLanded {L : List Landed} {x : Source} (h : (⟨x.seqId, x.offset, x.offset + x.size⟩ : Landed) ∈ L) : Cov L x :=
  ⟨⟨_, h, rfl, rfl⟩, fun _ a b => ⟨_, h, rfl, a, b⟩⟩

/-- Bytes that a credit stands for are at the receiver. -/
def CredOk (L : List Landed) (k : Credit) : Prop := ∀ x, k.lo ≤ x → x < k.hi → hasByte L k.key.2.1 x

theorem CredOk.of {L : List Landed} (x y : Source) (cp : Option Checkpoint) (hg : ∀ k, cp = some k → GoodCp L k)
    (_ : y.key = x.key) (h : y.offset = x.offset ∨ y.offset = x.offset + cpBytes x cp) : CredOk L (creditOf (x, y)) := by
  intro p h1 h2
  simp only [creditOf] at h1 h2
  rcases h with h | h
  · omega
  · rw [h] at h2
    cases cp with
    | none => simp only [cpBytes] at h2; omega
    | some k =>
      obtain ⟨g1, -, -, g4⟩ := hg k rfl
      simp only [cpBytes, g1, if_true] at h2
      split at h2
      · rename_i hk
        simp only [creditOf, Source.key]
        rw [← hk.1]
        exact g4 p (by omega) (by omega)
      · omega

/-- What is recorded of the sender's blocks. -/
structure CInv (c : ECfg) (mb : Int) (del : Bool) (S : ESys) : Prop where
  cred : ∀ k ∈ S.snd.credits, CredOk S.landed k
  dl : S.dec = true → S.refused = false → S.silent = false → S.snd.q.initFinished = true ∧ S.began = true ∧
    ∀ x, S.snd.Held x → Cov S.landed x
  run : ∃ evs, sRun (SSys.init mb del c.n) evs = .ok S.snd ∧ SListFirst evs ∧ (∀ e ∈ evs, e.NonNeg) ∧
    (S.began = false → ∀ e ∈ evs, e.isPop = false)

/-- A step of a transfer is a step of its sender. -/
structure SFrame (S S' : ESys) : Prop where
  step : S'.snd = S.snd ∨ ∃ ev, sStep S.snd ev = .ok S'.snd ∧ ev.Cps (GoodCp S.landed) ∧
    (ev.isPop = true → S'.began = true) ∧ (ev.isSetPrev = true → S.began = false) ∧ ∀ t, ev ≠ .returnUnacked t
  began : S.began = true → S'.began = true
  landed : S'.landed = S.landed
  dec : S'.dec = S.dec
  silent : S'.silent = S.silent
  refused : S'.refused = false → S.refused = false

theorem SFrame.ofPort {S S' : ESys} (h1 : S'.snd = S.snd) (h2 : S.began = true → S'.began = true) (h3 : S'.landed = S.landed)
    (h4 : S'.dec = S.dec) (h5 : S'.silent = S.silent) (h6 : S'.refused = S.refused) : SFrame S S' :=
  ⟨.inl h1, h2, h3, h4, h5, by rw [h6]; exact id⟩

theorem eStepS_frame {c : ECfg} {S S' : ESys} {e : SEv} (hi : PInv c S) (h : eStepS c S e = some S') : SFrame S S' := by
  have ev : ∀ {ev : SEvent} {s' : SSys} {p : Nat → Port} {b : Bool} {r : Bool}, sStep S.snd ev = .ok s' →
      ev.Cps (GoodCp S.landed) → (ev.isPop = true → b = true) → (ev.isSetPrev = true → S.began = false) →
      (∀ t, ev ≠ .returnUnacked t) → SFrame S { S with snd := s', port := p, began := S.began || b, refused := S.refused || r } := by
    intro ev s' p b r h1 h2 h3 h4 h5
    exact ⟨.inr ⟨ev, h1, h2, fun h => by simp [h3 h], h4, h5⟩, fun h => by simp [h], rfl, rfl, rfl,
      fun h => by simp at h; exact h.1⟩
  have ev0 : ∀ {ev : SEvent} {s' : SSys} {p : Nat → Port}, sStep S.snd ev = .ok s' →
      ev.Cps (GoodCp S.landed) → ev.isPop = false → (ev.isSetPrev = true → S.began = false) →
      (∀ t, ev ≠ .returnUnacked t) → SFrame S { S with snd := s', port := p } := by
    intro ev' s' p h1 h2 h3 h4 h5
    have := ev (p := p) (b := false) (r := false) h1 h2 (by simp [h3]) h4 h5
    simpa using this
  cases e with
  | discover f =>
    obtain ⟨s', h1, rfl⟩ := snd?_some h
    exact ev0 h1 trivial rfl (by simp [SEvent.isSetPrev]) (by simp)
  | finishDiscovery =>
    obtain ⟨s', h1, rfl⟩ := snd?_some h
    exact ev0 h1 trivial rfl (by simp [SEvent.isSetPrev]) (by simp)
  | setPrev infos =>
    simp only [eStepS] at h
    split at h
    · cases h
    · rename_i hb
      obtain ⟨s', h1, rfl⟩ := snd?_some h
      exact ev0 h1 trivial rfl (fun _ => by simpa using hb) (by simp)
  | connect t =>
    simp only [eStepS] at h
    split at h
    · split at h
      · cases h; exact SFrame.ofPort rfl id rfl rfl rfl rfl
      · cases h; exact SFrame.ofPort rfl id rfl rfl rfl rfl
      · cases h
    · cases h
  | pop t x =>
    simp only [eStepS] at h
    split at h
    · obtain ⟨s', h1, rfl⟩ := snd?_some h
      have := ev (p := S.port) (b := true) (r := false) h1 trivial (fun _ => rfl) (by simp [SEvent.isSetPrev]) (by simp)
      simpa using this
    · cases h
  | openOk t =>
    obtain ⟨s', h1, rfl⟩ := snd?_some h
    exact ev0 h1 trivial rfl (by simp [SEvent.isSetPrev]) (by simp)
  | openFail t =>
    obtain ⟨s', h1, rfl⟩ := snd?_some h
    exact ev0 h1 trivial rfl (by simp [SEvent.isSetPrev]) (by simp)
  | write t n =>
    simp only [eStepS] at h
    split at h
    · split at h
      · cases h; exact SFrame.ofPort rfl id rfl rfl rfl rfl
      · cases h
    · cases h
  | sent t o =>
    simp only [eStepS] at h
    split at h
    · split at h
      all_goals first
        | (obtain ⟨s', h1, rfl⟩ := snd?_some h
           exact ev0 h1 trivial rfl (by simp [SEvent.isSetPrev]) (by simp))
        | (split at h
           · obtain ⟨s', h1, rfl⟩ := snd?_some h
             exact ev0 h1 trivial rfl (by simp [SEvent.isSetPrev]) (by simp)
           · cases h)
    · cases h
  | sendDone t =>
    simp only [eStepS] at h
    split at h
    · split at h
      · cases h; exact SFrame.ofPort rfl (fun _ => rfl) rfl rfl rfl rfl
      · cases h
    · cases h
  | lose t =>
    simp only [eStepS] at h
    split at h
    · split at h
      · cases h; exact SFrame.ofPort rfl id rfl rfl rfl rfl
      · cases h
    · cases h
  | readCp t =>
    simp only [eStepS] at h
    split at h
    · rename_i cp rest hp hin
      obtain ⟨s', h1, rfl⟩ := snd?_some h
      exact ev0 h1 ((hi.thr t).s3 cp (by rw [hin]; simp)) rfl (by simp [SEvent.isSetPrev]) (by simp)
    · cases h
  | readWait t =>
    simp only [eStepS] at h
    split at h
    · obtain ⟨s', h1, rfl⟩ := snd?_some h
      exact ev0 h1 trivial rfl (by simp [SEvent.isSetPrev]) (by simp)
    · cases h
  | readErr t =>
    simp only [eStepS] at h
    split at h
    · obtain ⟨s', h1, rfl⟩ := snd?_some h
      exact ev0 h1 trivial rfl (by simp [SEvent.isSetPrev]) (by simp)
    · cases h
  | errLost t =>
    simp only [eStepS] at h
    split at h
    · obtain ⟨s', h1, rfl⟩ := snd?_some h
      exact ev0 h1 trivial rfl (by simp [SEvent.isSetPrev]) (by simp)
    · cases h
  | global t =>
    simp only [eStepS] at h
    split at h
    · rename_i u cp l hp
      obtain ⟨s', h1, rfl⟩ := snd?_some h
      have hk := (hi.thr t).pr1 _ _ hp (u, cp) (by simp)
      have := ev (p := upd S.port t { S.port t with sph := .processing ((u, cp) :: l) true }) (b := false)
        (r := refusedCp (S.hist u) cp true) h1 (by
          simp only [SEvent.Cps]
          have h2 := hk.2
          simp only at h2
          rw [h2]; exact hi.cpg u hk.1) (by simp [SEvent.isPop]) (by simp [SEvent.isSetPrev]) (by simp)
      simpa [ESys.setP] using this
    · cases h
  | globalGo t =>
    simp only [eStepS] at h
    split at h
    · split at h
      · cases h
      · cases h; exact SFrame.ofPort rfl id rfl rfl rfl rfl
    · cases h
  | errDone t =>
    simp only [eStepS] at h
    split at h
    · cases h; exact SFrame.ofPort rfl id rfl rfl rfl rfl
    · cases h
  | readDone t =>
    simp only [eStepS] at h
    split at h
    · obtain ⟨s', h1, rfl⟩ := snd?_some h
      exact ev0 h1 trivial rfl (by simp [SEvent.isSetPrev]) (by simp)
    · cases h
  | doneEnd t ok =>
    simp only [eStepS] at h
    split at h
    · cases h; exact SFrame.ofPort rfl id rfl rfl rfl rfl
    · cases h
  | giveUp t =>
    simp only [eStepS] at h
    split at h
    · split at h
      · cases h; exact SFrame.ofPort rfl id rfl rfl rfl rfl
      · cases h
    · cases h
  | exit t =>
    simp only [eStepS] at h
    split at h
    · obtain ⟨s', h1, rfl⟩ := snd?_some h
      exact ev0 h1 trivial rfl (by simp [SEvent.isSetPrev]) (by simp)
    · cases h

theorem GoodCp.nonneg {L : List Landed} {cp : Checkpoint} (h : GoodCp L cp) : CpNonneg cp := ⟨h.2.1, h.2.2.1⟩

theorem SEvent.Cps.imp {P Q : Checkpoint → Prop} (h : ∀ k, P k → Q k) : ∀ {e : SEvent}, e.Cps P → e.Cps Q := by
  intro e he
  cases e <;> simp only [SEvent.Cps] at he ⊢ <;> first | trivial | exact h _ he

theorem sRun_snoc {evs : List SEvent} {e : SEvent} {s1 s2 : SSys} : ∀ {s : SSys}, sRun s evs = .ok s1 →
    sStep s1 e = .ok s2 → sRun s (evs ++ [e]) = .ok s2 := by
  induction evs with
  | nil =>
    intro s h1 h2
    simp only [sRun, Res.ok.injEq] at h1
    subst h1
    simp [sRun, h2]
  | cons a as ih =>
    intro s h1 h2
    simp only [sRun, List.cons_append] at h1 ⊢
    split at h1
    · rename_i s' hs
      exact ih h1 h2
    · cases h1
    · cases h1

theorem CInv.stepS {c : ECfg} {mb : Int} {del : Bool} {S S' : ESys} {e : SEv} (hi : PInv c S) (hc : CInv c mb del S)
    (h : eStepS c S e = some S') : CInv c mb del S' := by
  have hf := eStepS_frame hi h
  have hst : ∀ th ∈ S.snd.threads, ∀ k, th.hist.lastCp = some k → GoodCp S.landed k := by
    intro th hth k hk
    obtain ⟨v, hv, rfl⟩ := List.mem_iff_getElem.1 hth
    have e : S.snd.thr v = S.snd.threads[v] := thr_of_some (by simp [hv])
    exact (hi.thr v).s5 k (by rw [e]; exact hk)
  have hbeg : S'.began = false → S.began = false := by
    intro hb
    cases hx : S.began with
    | false => rfl
    | true => rw [hf.began hx] at hb; cases hb
  rcases hf.step with hs | ⟨ev, h1, h2, h3, h4, h5⟩
  · refine ⟨?_, ?_, ?_⟩
    · rw [hs, hf.landed]; exact hc.cred
    · intro hd hr hsi
      rw [hf.dec] at hd
      rw [hf.silent] at hsi
      obtain ⟨g1, g2, g3⟩ := hc.dl hd (hf.refused hr) hsi
      rw [hs, hf.landed]
      exact ⟨g1, hf.began g2, g3⟩
    · rw [hs]
      obtain ⟨evs, r1, r2, r3, r4⟩ := hc.run
      exact ⟨evs, r1, r2, r3, fun hb => r4 (hbeg hb)⟩
  · refine ⟨?_, ?_, ?_⟩
    · rw [hf.landed]
      exact cred_step (CredOk.of) h5 h2 hst h1 hc.cred
    · intro hd hr hsi
      rw [hf.dec] at hd
      rw [hf.silent] at hsi
      obtain ⟨g1, g2, g3⟩ := hc.dl hd (hf.refused hr) hsi
      have ht : ev.ofThread = true := by
        cases ev with
        | discover f => rw [(sStep_discover h1).1] at g1; cases g1
        | finishDiscovery => rw [(sStep_finishDiscovery h1).1] at g1; cases g1
        | setPrev i => rw [h4 rfl] at g2; cases g2
        | returnUnacked t => exact absurd rfl (h5 t)
        | _ => rfl
      obtain ⟨k1, k2⟩ := held_step (Cov.stable S.landed) ht (h2.imp fun _ => GoodCp.nonneg)
        (fun th hth k hk => (hst th hth k hk).nonneg) h1 g3
      rw [hf.landed]
      exact ⟨by rw [k2]; exact g1, hf.began g2, k1⟩
    · obtain ⟨evs, r1, r2, r3, r4⟩ := hc.run
      refine ⟨evs ++ [ev], sRun_snoc r1 h1, ?_, ?_, ?_⟩
      · unfold SListFirst at r2 ⊢
        rw [List.pairwise_append]
        refine ⟨r2, List.pairwise_singleton _ _, ?_⟩
        intro a ha b hb hab
        simp only [List.mem_singleton] at hb
        subst hb
        have := r4 (h4 hab.2) a ha
        rw [hab.1] at this; cases this
      · intro e' he'
        simp only [List.mem_append, List.mem_singleton] at he'
        rcases he' with he' | rfl
        · exact r3 e' he'
        · exact h2.imp fun _ => GoodCp.nonneg
      · intro hb e' he'
        simp only [List.mem_append, List.mem_singleton] at he'
        rcases he' with he' | rfl
        · exact r4 (hbeg hb) e' he'
        · cases hx : e'.isPop with
          | false => rfl
          | true => rw [h3 hx] at hb; cases hb

/-- A thread's blocks, all at the receiver. -/
def AllIn (S : ESys) (v : Nat) : Prop :=
  (S.snd.thr v).opening = none ∧ (S.snd.thr v).cur = none ∧ ∀ x ∈ (S.snd.thr v).hist.history, Cov S.landed x

theorem PInv.synced {c : ECfg} {S : ESys} (hi : PInv c S) {v : Nat} (h : (S.rcv.th v).phase.synced = true) :
    (S.port v).idle = true ∧ AllIn S v := by
  obtain ⟨⟨q1, -, q3, q4, q5⟩, hup, -, -⟩ := (hi.loc v).wait h
  refine ⟨q1, q3, q4, fun x hx => ?_⟩
  have hm : x.wire ∈ gone (S.snd.thr v) (S.port v) := by
    unfold gone
    exact List.mem_append_left _ (List.mem_map_of_mem hx)
  rw [← q5] at hm
  simp only [Port.have_, hup, upBlocks_nil, List.append_nil] at hm
  exact Cov.ofLanded ((hi.thr v).s1 _ hm)

theorem PInv.handledIn {c : ECfg} {S : ESys} (hi : PInv c S) {v : Nat} (h : S.ctx.handled v) : AllIn S v := by
  have hl := hi.loc v
  obtain ⟨ok, ho⟩ := hl.use h.2
  have hb : ¬ ((S.snd.thr v).opening.isSome = true ∨ (S.snd.thr v).cur.isSome = true) := by
    intro hx; have := hl.busy hx; rw [ho] at this; cases this
  refine ⟨?_, ?_, fun x hx => ?_⟩
  · cases hx : (S.snd.thr v).opening with
    | none => rfl
    | some y => exact absurd (.inl (by rw [hx]; rfl)) hb
  · cases hx : (S.snd.thr v).cur with
    | none => rfl
    | some y => exact absurd (.inr (by rw [hx]; rfl)) hb
  · have hm : x.wire ∈ (S.port v).counted := by
      rw [← (hl.glob h.1).2]; exact List.mem_map_of_mem hx
    exact Cov.ofLanded ((hi.thr v).s1 _ (List.mem_append_left _ hm))

/-- The first decision that the transfer is complete. -/
theorem PInv.decides {c : ECfg} {S : ESys} {t : Nat} (hi : PInv c S) (hb : BInv c S) (hr : S.refused = false)
    (hs : S.silent = false) (hd : S.dec = false) (htn : t < c.n) (hp : (S.rcv.th t).phase = .nothing)
    (hm : ∀ u, u < c.n → u ≠ t → (S.rcv.th u).mark ≠ .running) :
    S.snd.q.initFinished = true ∧ S.began = true ∧ ∀ x, S.snd.Held x → Cov S.landed x := by
  obtain ⟨es, hes⟩ := hi.rr
  have hR := RInv.run hes
  have key : ∀ v, v < c.n → ((S.port v).idle = true ∨ S.ctx.handled v) ∧ AllIn S v := by
    intro v hv
    by_cases hvt : v = t
    · subst hvt
      obtain ⟨k1, k2⟩ := hi.synced (v := v) (by rw [hp]; rfl)
      exact ⟨.inl k1, k2⟩
    · cases hmk : (S.rcv.th v).mark with
      | running => exact absurd hmk (hm v hv hvt)
      | waiting =>
        have := (hR.thr v).mark hmk
        obtain ⟨k1, k2⟩ := hi.synced (v := v) (by
          revert this
          cases (S.rcv.th v).phase <;> simp [RPhase.afterDone, RPhase.synced])
        exact ⟨.inl k1, k2⟩
      | finished =>
        have hv := (hi.thr v).fin hd hs hmk
        obtain ⟨i, hi1, hi2⟩ := List.mem_iff_getElem.1 hv
        have hlen := (hR.thr t).all (.inl hp)
        have hh := (hi.thr t).e1 hr i v (by rw [List.getElem?_eq_some_iff]; exact ⟨hi1, hi2⟩) (by
          have : i < S.rcv.cps.length := hi1
          omega)
        exact ⟨.inr hh, hi.handledIn hh⟩
  obtain ⟨hq, hin⟩ := hb.q (by omega) (fun v hv => (key v hv).1)
  refine ⟨hin, ?_, ?_⟩
  · cases hbeg : S.began with
    | true => rfl
    | false =>
      have hbg := (hi.thr t).bg hbeg
      rcases (key t htn).1 with h | h
      · rw [hbg.1] at h; cases h
      · have := h.1
        simp only [ESys.ctx, hbg.2.1] at this; cases this
  · intro x hx
    rcases hx with hx | ⟨th, hth, hx⟩
    · rw [hq] at hx; cases hx
    · obtain ⟨v, hv, rfl⟩ := List.mem_iff_getElem.1 hth
      have e : S.snd.thr v = S.snd.threads[v] := thr_of_some (by simp [hv])
      obtain ⟨k1, k2, k3⟩ := (key v (by rw [← hi.len]; exact hv)).2
      rw [e] at k1 k2 k3
      rw [thread_mem, k1, k2] at hx
      rcases hx with hx | hx | hx
      · cases hx
      · cases hx
      · exact k3 x hx

theorem eStepR_dec {c : ECfg} {S S' : ESys} {e : WEv} (h : eStepR c S e = some S') (hd : S.dec = false) (hd' : S'.dec = true) :
    ∃ t, t < c.n ∧ (S.rcv.th t).phase = .nothing ∧ (∀ u, u < c.n → u ≠ t → (S.rcv.th u).mark ≠ .running) ∧
      S'.landed = S.landed ∧ S'.silent = S.silent := by
  by_cases hq : ∃ t, e = .query t
  · obtain ⟨t, rfl⟩ := hq
    simp only [eStepR] at h
    split at h
    · rename_i S1 hS1
      cases h
      obtain ⟨r', h1, rfl⟩ := rcv?_some hS1
      obtain ⟨hc, hcps, hth | ⟨hth, hm⟩⟩ := rs_query h1
      · simp [hd, hth, upd_self] at hd'
      · exact ⟨t, hc.1, hc.2, hm, rfl, rfl⟩
    · cases h
  · exfalso
    have rd : ∀ {S1 S2 : ESys} {e : REvent}, S1.rcv? c e = some S2 → S2.dec = S1.dec := by
      intro S1 S2 e h
      obtain ⟨r', -, rfl⟩ := rcv?_some h
      rfl
    have : S'.dec = S.dec := by
      cases e with
      | query t => exact absurd ⟨t, rfl⟩ hq
      | recvPart t w fatal =>
        simp only [eStepR] at h
        split at h
        · split at h
          · split at h
            · rename_i S1 hS1
              exact (rd h).trans ((rd hS1).trans rfl)
            · cases h
          · cases h
        · cases h
      | _ =>
        simp only [eStepR] at h
        repeat' (split at h)
        all_goals first
          | (cases h; done)
          | (cases h; rfl)
          | exact (rd h).trans rfl
    rw [this, hd] at hd'
    cases hd'

theorem CInv.stepR {c : ECfg} {mb : Int} {del : Bool} {S S' : ESys} {e : WEv} (hi : PInv c S) (hb : BInv c S) (hc : CInv c mb del S)
    (h : eStepR c S e = some S') : CInv c mb del S' := by
  have hf := eStepR_frame h
  refine ⟨?_, ?_, ?_⟩
  · rw [hf.snd]
    exact fun k hk x h1 h2 => (hc.cred k hk x h1 h2).mono hf.landed
  · intro hd hr hs
    rw [hf.refused] at hr
    have hs' := hf.silent hs
    rw [hf.snd, hf.began]
    cases hd0 : S.dec with
    | true =>
      obtain ⟨g1, g2, g3⟩ := hc.dl hd0 hr hs'
      exact ⟨g1, g2, fun x hx => (g3 x hx).mono hf.landed⟩
    | false =>
      obtain ⟨t, t1, t2, t3, t4, -⟩ := eStepR_dec h hd0 hd
      rw [t4]
      exact hi.decides hb hr hs' hd0 t1 t2 t3
  · rw [hf.snd, hf.began]; exact hc.run

theorem PInv.init (c : ECfg) (mb : Int) (del : Bool) : PInv c (ESys.init c mb del) := by
  have ht : ∀ v, (ESys.init c mb del).snd.thr v = {} := by
    intro v
    simp only [ESys.init, SSys.init, SSys.thr, List.getD_eq_getElem?_getD, List.getElem?_replicate]
    split <;> rfl
  refine ⟨by simp [ESys.init, SSys.init], ⟨[], rfl⟩, by simp [ESys.init], by simp [ESys.init], ?_, ?_, by simp [ESys.init]⟩
  · intro v
    rw [ht v]
    simpa [ESys.init] using PortInv.init {}
  · intro v
    rw [ht v]
    simpa [ESys.init] using ThrInv.init c _ v

theorem BInv.init (c : ECfg) (mb : Int) (del : Bool) : BInv c (ESys.init c mb del) := by
  have ht : ∀ v, (ESys.init c mb del).snd.thr v = {} := by
    intro v
    simp only [ESys.init, SSys.init, SSys.thr, List.getD_eq_getElem?_getD, List.getElem?_replicate]
    split <;> rfl
  refine ⟨?_, ?_⟩
  · intro u hu; rw [ht u] at hu; cases hu
  · intro hn ha
    rcases ha 0 hn with h | h
    · cases h
    · have := h.1
      simp only [ESys.ctx, ht 0] at this; cases this

theorem CInv.init (c : ECfg) (mb : Int) (del : Bool) : CInv c mb del (ESys.init c mb del) :=
  ⟨by simp [ESys.init, SSys.init], by simp [ESys.init], [], rfl, List.Pairwise.nil, by simp, by simp⟩

theorem einv_run {c : ECfg} {mb : Int} {del : Bool} : ∀ {es : List EEvent} {S S' : ESys}, PInv c S → BInv c S →
    CInv c mb del S → eRun c S es = some S' → PInv c S' ∧ BInv c S' ∧ CInv c mb del S' := by
  intro es
  induction es with
  | nil => intro S S' h1 h2 h3 h; cases h; exact ⟨h1, h2, h3⟩
  | cons e es ih =>
    intro S S' h1 h2 h3 h
    simp only [eRun] at h
    split at h
    · rename_i S1 hS1
      cases e with
      | s e => exact ih (h1.stepS hS1) (h2.stepS h1 hS1) (h3.stepS h1 hS1) h
      | v e => exact ih (h1.stepR hS1) (h2.stepR hS1) (h3.stepR h1 h2 hS1) h
    · cases h

end Wdt
