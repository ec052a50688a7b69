import Verif.Lemmas.EndToEndStop
import Verif.Lemmas.EndToEndFiles
/-
Transfers with tags or checksums: a checkpoint never mentions part of a block.  So no checkpoint
that counts blocks of the history is refused, and no block gets a negative size.
-/
namespace Wdt

/-! ### Sizes of new blocks -/

theorem tileLoop_nonneg (bs : Int) (fuel : Nat) : ∀ (off rem : Int) (l : List Block), 0 ≤ rem →
    tileLoop bs fuel off rem = some l → ∀ b ∈ l, 0 ≤ b.size := by
  induction fuel with
  | zero => intro off rem l _ h; cases h
  | succ fuel ih =>
    intro off rem l h0 h
    have hlow : ∀ (fuel : Nat) (off rem : Int), bs < 0 → tileLoop bs fuel off rem ≠ none → rem ≤ bs := by
      intro fuel
      induction fuel with
      | zero => intro off rem _ h; exact absurd rfl h
      | succ fuel ih =>
        intro off rem hb h
        unfold tileLoop at h
        simp only at h
        by_cases hr : rem - min rem bs > 0
        · rw [if_pos hr] at h
          have := ih (off + min rem bs) (rem - min rem bs) hb (by
            intro e; rw [e] at h; exact h rfl)
          omega
        · omega
    by_cases hb : bs < 0
    · have := hlow (fuel + 1) off rem hb (by rw [h]; simp)
      omega
    unfold tileLoop at h
    simp only at h
    by_cases hr : rem - min rem bs > 0
    · rw [if_pos hr] at h
      obtain ⟨m, hm, rfl⟩ := Option.map_eq_some_iff.1 h
      intro b hbm
      rcases List.mem_cons.1 hbm with rfl | hbm
      · simp only; omega
      · exact ih _ _ m (by omega) hm b hbm
    · rw [if_neg hr] at h
      cases h
      intro b hbm
      rw [List.mem_singleton] at hbm
      subst hbm; simp only; omega

theorem tileAll_nonneg (bs : Int) (fuel : Nat) : ∀ (cs : List Interval) (l : List Block), (∀ c ∈ cs, 0 ≤ c.size) →
    tileAll bs fuel cs = some l → ∀ b ∈ l, 0 ≤ b.size := by
  intro cs
  induction cs with
  | nil => intro l _ h; cases h; simp
  | cons c cs ih =>
    intro l hc h
    simp only [tileAll] at h
    split at h
    · rename_i a b ha hb
      cases h
      intro x hx
      rcases List.mem_append.1 hx with hx | hx
      · exact tileLoop_nonneg bs fuel _ _ a (hc c (by simp)) ha x hx
      · exact ih b (fun d hd => hc d (by simp [hd])) hb x hx
    · cases h

theorem mkInterval_nonneg {a b : Int} {i : Interval} (h : mkInterval a b = .ok i) : 0 ≤ i.size := by
  unfold mkInterval at h
  split at h
  · cases h; simp only [Interval.size]; omega
  · cases h

theorem remainingLoop_nonneg (fs : Int) : ∀ (cs : List Interval) (cur : Int) (r : List Interval),
    remainingLoop fs cur cs = .ok r → ∀ i ∈ r, 0 ≤ i.size := by
  intro cs
  induction cs with
  | nil =>
    intro cur r h
    simp only [remainingLoop] at h
    split at h
    · split at h
      · cases h
      · rename_i i hi
        cases h
        intro j hj
        rw [List.mem_singleton] at hj
        subst hj; exact mkInterval_nonneg hi
    · cases h; simp
  | cons c cs ih =>
    intro cur r h
    simp only [remainingLoop] at h
    split at h
    · split at h
      · rename_i i r' hi hr
        cases h
        intro j hj
        rcases List.mem_cons.1 hj with rfl | hj
        · exact mkInterval_nonneg hi
        · exact ih _ _ hr j hj
      · cases h
      · cases h
    · exact ih _ _ h

theorem planFile_nonneg {prev : Option FileChunksInfo} {fs next : Int} {p : FilePlan}
    (h : planFile prev fs next = .ok (some p)) : ∀ i ∈ p.remaining, 0 ≤ i.size := by
  unfold planFile at h
  split at h
  · split at h
    · cases h
    · rename_i i hi
      cases h
      intro j hj
      rw [List.mem_singleton] at hj
      subst hj; exact mkInterval_nonneg hi
  · split at h
    · split at h
      · cases h
      · rename_i i hi
        cases h
        intro j hj
        rw [List.mem_singleton] at hj
        subst hj; exact mkInterval_nonneg hi
    · split at h
      · cases h
      · cases h
      · rename_i c cs hr
        cases h
        exact remainingLoop_nonneg _ _ _ _ hr

theorem createInternal_sized {q q' : QState} {f : FileRec} {new : List Source} (h : createInternal q f = .ok (q', new)) :
    ∀ b ∈ new, 0 ≤ b.size := by
  unfold createInternal at h
  split at h
  · cases h
  · cases h; simp
  · rename_i p hp
    split at h
    · cases h
    · rename_i bl hbl
      cases h
      intro b hb
      obtain ⟨x, hx, rfl⟩ := List.mem_map.1 hb
      exact tileAll_nonneg _ _ _ _ (planFile_nonneg hp) hbl x hx

theorem recreateLoop_sized : ∀ (fs : List FileRec) {q q' : QState} {new : List Source},
    recreateLoop q fs = .ok (q', new) → (∀ b ∈ new, 0 ≤ b.size) ∧ q'.queue = q.queue ++ new := by
  intro fs
  induction fs with
  | nil => intro q q' new h; simp only [recreateLoop] at h; cases h; simp
  | cons f fs ih =>
    intro q q' new h
    simp only [recreateLoop] at h
    split at h
    · cases h
    · rename_i q1 s1 h1
      split at h
      · cases h
      · rename_i q2 s2 h2
        cases h
        obtain ⟨i1, i2⟩ := ih h2
        refine ⟨fun b hb => ?_, ?_⟩
        · rcases List.mem_append.1 hb with hb | hb
          · exact createInternal_sized h1 b hb
          · exact i1 b hb
        · rw [i2, (createInternal_ok _ _ _ _ h1).1, List.append_assoc]

theorem enqueueDeletions_sized (q : QState) : ∀ x ∈ (enqueueDeletions q).1.queue, x ∈ q.queue ∨ 0 ≤ x.size := by
  intro x hx
  unfold enqueueDeletions at hx
  split at hx
  · exact .inl hx
  · split at hx
    · exact .inl hx
    · simp only [List.mem_append, List.mem_map] at hx
      rcases hx with hx | ⟨i, -, rfl⟩
      · exact .inl hx
      · exact .inr (Int.le_refl _)

/-- No block has a negative size. -/
def Sized (s : SSys) : Prop := ∀ x, s.Held x → 0 ≤ x.size

theorem Sized.disc {s s' : SSys} (h : Sized s) (ht : s'.threads = s.threads) (hq : ∀ x ∈ s'.q.queue, x ∈ s.q.queue ∨ 0 ≤ x.size) :
    Sized s' := by
  intro x hx
  rcases hx with hx | hx
  · rcases hq x hx with hx | hx
    · exact h x (.inl hx)
    · exact hx
  · rw [ht] at hx; exact h x (.inr hx)

/-- A checkpoint without part of a block. -/
def ZeroCp (k : Checkpoint) : Prop := k.lastBlockSeqId = 0 ∧ k.lastBlockOffset = 0 ∧ k.lastBlockReceivedBytes = 0

theorem cpBytes_zero {x : Source} {cp : Option Checkpoint} (h : ∀ k, cp = some k → ZeroCp k) : cpBytes x cp = 0 := by
  unfold cpBytes
  split
  · rfl
  · rename_i k
    have := (h k rfl).2.2
    split
    · split
      · exact this
      · rfl
    · exact this

theorem sized_stable : StableUnder ZeroCp fun x => 0 ≤ x.size := by
  intro x y cp hz hk ho hx
  rw [cpBytes_zero hz] at ho
  simp only [Source.key, Prod.mk.injEq] at hk
  show 0 ≤ y.size
  omega

theorem Sized.step {s s' : SSys} {e : SEvent} (h : Sized s) (he : ∀ t, e ≠ .returnUnacked t) (hc : e.Cps ZeroCp)
    (hst : ∀ th ∈ s.threads, ∀ k, th.hist.lastCp = some k → ZeroCp k) (hs : sStep s e = .ok s') : Sized s' := by
  cases e with
  | discover f =>
    have ht := (sStep_discover hs).2.1
    simp only [sStep] at hs
    split at hs
    · cases hs
    · split at hs
      · cases hs
      · rename_i q new hq
        cases hs
        refine h.disc ht fun x hx => ?_
        unfold discoverFile at hq
        rw [(createInternal_ok _ _ _ _ hq).1] at hx
        rcases List.mem_append.1 hx with hx | hx
        · exact .inl hx
        · exact .inr (createInternal_sized hq x hx)
  | finishDiscovery =>
    have ht := (sStep_finishDiscovery hs).2.1
    simp only [sStep] at hs
    split at hs
    · cases hs
    · cases hs
      exact h.disc ht fun x hx => enqueueDeletions_sized { s.q with initFinished := true } x hx
  | setPrev infos =>
    have ht := (sStep_setPrev hs).1
    simp only [sStep] at hs
    split at hs
    · cases hs
    · rename_i q new hq
      cases hs
      refine h.disc ht fun x hx => ?_
      unfold setPrev at hq
      split at hq
      · cases hq
      · simp only at hq
        split at hq
        · cases hq
        · rename_i q2 s2 h2
          cases hq
          obtain ⟨r1, r2⟩ := recreateLoop_sized _ h2
          rcases enqueueDeletions_sized _ x hx with hx | hx
          · rw [r2, List.nil_append] at hx
            exact .inr (r1 x hx)
          · exact .inr hx
  | returnUnacked t => exact absurd rfl (he t)
  | _ => exact (held_stepG sized_stable rfl hc hst hs h).1

/-! ### The invariant -/

/-- Invariant of a port: checkpoints, made and stored, are without part of a block; the stored one
does not count more blocks than the receiver has. -/
structure ZPort (p : Port) (h : Hist) : Prop where
  last : p.last = none
  loc : ∀ k, .localCp k ∈ p.inbox → ZeroCp k
  lcp : ∀ k, h.lastCp = some k → ZeroCp k ∧ k.numBlocks ≤ p.counted.length

/-- All of it. -/
structure ZInv (S : ESys) : Prop where
  port : ∀ v, ZPort (S.port v) (S.snd.thr v).hist
  sized : Sized S.snd

theorem zero_cp {p : Port} (h : p.last = none) : ZeroCp p.cp := by simp [ZeroCp, Port.cp, h]

theorem ZPort.mono {p p' : Port} {h : Hist} (hz : ZPort p h) (h1 : p'.last = none) (h2 : ∀ k, .localCp k ∈ p'.inbox → .localCp k ∈ p.inbox)
    (h3 : p.counted.length ≤ p'.counted.length) : ZPort p' h :=
  ⟨h1, fun k hk => hz.loc k (h2 k hk), fun k hk => ⟨(hz.lcp k hk).1, by have := (hz.lcp k hk).2; omega⟩⟩

/-- What a step of the sender does to stored checkpoints. -/
theorem sStep_lastCp {s s' : SSys} {e : SEvent} (hs : sStep s e = .ok s') (he : ∀ t, e ≠ .returnUnacked t) (u : Nat) (k : Checkpoint)
    (hk : (s'.thr u).hist.lastCp = some k) : (s.thr u).hist.lastCp = some k ∨ e = .localCp u k ∨ e = .globalCp u k := by
  have set : ∀ {t : Nat} {th th' : SThread}, s.threads[t]? = some th → s'.threads = s.threads.set t th' →
      (th'.hist.lastCp = th.hist.lastCp ∨ th'.hist.lastCp = none) → (s.thr u).hist.lastCp = some k := by
    intro t th th' h1 h2 h3
    rw [thr_set h1 h2, upd_apply] at hk
    split at hk
    · rename_i e; subst e
      rw [thr_of_some h1]
      rcases h3 with h3 | h3
      · rw [← h3]; exact hk
      · rw [h3] at hk; cases hk
    · exact hk
  have app : ∀ {t : Nat} {th : SThread} {cp : Checkpoint} {g : Bool}, s.threads[t]? = some th →
      applyCp s t th (setCheckpoint th.hist cp g) = .ok s' → (s.thr u).hist.lastCp = some k ∨ u = t ∧ k = cp := by
    intro t th cp g h1 h2
    obtain ⟨H', l, h3, -, -, h4⟩ := applyCp_shape h2
    have h5 : s'.threads = s.threads.set t { th with hist := H' } := by rw [h3]; rfl
    rcases h4 with ⟨-, rfl, -⟩ | ⟨-, -, -, -, h6, -⟩
    · exact .inl (set h1 h5 (.inl rfl))
    · rw [thr_set h1 h5, upd_apply] at hk
      split at hk
      · rename_i e
        simp only [h6, Option.some.injEq] at hk
        exact .inr ⟨e, hk.symm⟩
      · exact .inl hk
  cases e with
  | discover f => rw [thr_same (sStep_discover hs).2.1] at hk; exact .inl hk
  | finishDiscovery => rw [thr_same (sStep_finishDiscovery hs).2.1] at hk; exact .inl hk
  | setPrev infos => rw [thr_same (sStep_setPrev hs).1] at hk; exact .inl hk
  | pop t x =>
    obtain ⟨th, h1, _, _, _, _, rfl⟩ := sStep_pop hs
    exact .inl (set h1 rfl (.inl rfl))
  | openOk t =>
    obtain ⟨th, x, h1, _, _, rfl⟩ := sStep_openOk hs
    exact .inl (set h1 rfl (.inl rfl))
  | openFail t =>
    obtain ⟨th, x, h1, _, _, rfl⟩ := sStep_openFail hs
    exact .inl (set h1 rfl (.inl rfl))
  | sent t o =>
    have hs0 := hs
    simp only [sStep] at hs
    split at hs
    · rename_i hh x hth
      obtain ⟨H', l, h2, -, -, h3⟩ := sStep_sent hth rfl rfl hs0
      refine .inl (set (th' := ⟨H', none, none⟩) hth (by rw [h2]; rfl) ?_)
      rcases h3 with ⟨-, -, h3, -⟩ | ⟨-, -, h3, -⟩
      · exact .inl h3
      · exact .inr h3
    · cases hs
  | localCp t cp =>
    obtain ⟨th, hth, _, _, _, ha⟩ := sStep_localCp hs
    rcases app hth ha with h | ⟨rfl, rfl⟩
    · exact .inl h
    · exact .inr (.inl rfl)
  | globalCp t cp =>
    simp only [sStep] at hs
    split at hs
    · rename_i th hth
      rcases app hth hs with h | ⟨rfl, rfl⟩
      · exact .inl h
      · exact .inr (.inr rfl)
    · cases hs; exact .inl hk
  | markAll t =>
    obtain ⟨th, hth, rfl⟩ := sStep_markAll hs
    exact .inl (set hth rfl (.inl rfl))
  | returnUnacked t => exact absurd rfl (he t)
  | exit t =>
    obtain ⟨th, hth, _, ho, rfl⟩ := sStep_exit hs
    exact .inl (set hth rfl (.inl rfl))

theorem ZInv.stored {S : ESys} (h : ZInv S) : ∀ th ∈ S.snd.threads, ∀ k, th.hist.lastCp = some k → ZeroCp k := by
  intro th hth k hk
  obtain ⟨t, ht⟩ := List.mem_iff_getElem?.1 hth
  have := (h.port t).lcp k
  rw [thr_of_some ht] at this
  exact (this hk).1

/-- A step of the sender's queue and histories, with a change of one port. -/
theorem ZInv.sndStep {S S' : ESys} {s' : SSys} {ev : SEvent} (h : ZInv S) (hs : sStep S.snd ev = .ok s')
    (he : ∀ t, ev ≠ .returnUnacked t) (hsnd : S'.snd = s')
    (hp : ∀ v, (S'.port v).last = (S.port v).last ∧ (S'.port v).counted = (S.port v).counted ∧ (S'.port v).inbox ⊆ (S.port v).inbox)
    (hcp : ∀ u k, ev = .localCp u k ∨ ev = .globalCp u k → ZeroCp k ∧ k.numBlocks ≤ (S.port u).counted.length) : ZInv S' := by
  subst hsnd
  refine ⟨fun v => ?_, h.sized.step he ?_ h.stored hs⟩
  · obtain ⟨h1, h2, h3⟩ := hp v
    refine ⟨h1.trans (h.port v).last, fun k hk => (h.port v).loc k (h3 hk), fun k hk => ?_⟩
    rw [h2]
    rcases sStep_lastCp hs he v k hk with hk | hk
    · exact (h.port v).lcp k hk
    · exact hcp v k hk
  · cases ev with
    | localCp u k => exact (hcp u k (.inl rfl)).1
    | globalCp u k => exact (hcp u k (.inr rfl)).1
    | _ => trivial

/-- A step that changes only a port. -/
theorem ZInv.portStep {S S' : ESys} (h : ZInv S) (hsnd : S'.snd = S.snd)
    (hp : ∀ v, (S'.port v).last = none ∧ (S.port v).counted.length ≤ (S'.port v).counted.length ∧
      ∀ k, .localCp k ∈ (S'.port v).inbox → ZeroCp k) : ZInv S' := by
  refine ⟨fun v => ?_, by rw [hsnd]; exact h.sized⟩
  obtain ⟨h1, h2, h3⟩ := hp v
  rw [hsnd]
  exact ⟨h1, h3, fun k hk => ⟨((h.port v).lcp k hk).1, by have := ((h.port v).lcp k hk).2; omega⟩⟩

/-- What a sender thread leaves alone at its port. -/
def SameEnd (p p' : Port) : Prop := p'.last = p.last ∧ p'.counted = p.counted ∧ p'.inbox ⊆ p.inbox

theorem SameEnd.refl (p : Port) : SameEnd p p := ⟨rfl, rfl, fun _ h => h⟩

theorem SameEnd.leave (p : Port) (ph : SPh) : SameEnd p (p.leave ph) := ⟨rfl, rfl, by simp [Port.leave]⟩

theorem SameEnd.put (p : Port) (m : UCmd) : SameEnd p (p.put m) := by
  unfold Port.put; split <;> exact ⟨rfl, rfl, fun _ h => h⟩

theorem sameEnd_upd {S S' : ESys} {t : Nat} {p : Port} (hp : S'.port = upd S.port t p) (h : SameEnd (S.port t) p) :
    ∀ v, SameEnd (S.port v) (S'.port v) := by
  intro v
  rw [hp, upd_apply]
  split
  · rename_i e; subst e; exact h
  · exact .refl _

theorem eStepS_sameEnd {c : ECfg} {S S' : ESys} {e : SEv} (hs : eStepS c S e = some S') : ∀ v, SameEnd (S.port v) (S'.port v) := by
  have q : ∀ {S0 : ESys} {ev : SEvent}, S0.snd? ev = some S' → (∀ v, SameEnd (S.port v) (S0.port v)) →
      ∀ v, SameEnd (S.port v) (S'.port v) := by
    intro S0 ev he h0
    obtain ⟨s', -, rfl⟩ := snd?_some he
    exact h0
  have r : ∀ v, SameEnd (S.port v) (S.port v) := fun v => .refl _
  cases e with
  | discover f => exact q hs r
  | finishDiscovery => exact q hs r
  | setPrev infos =>
    simp only [eStepS] at hs
    split at hs
    · cases hs
    · exact q hs r
  | openOk t => exact q hs r
  | openFail t => exact q hs r
  | exit t =>
    simp only [eStepS] at hs
    split at hs
    · exact q hs r
    · cases hs
  | pop t x =>
    simp only [eStepS] at hs
    split at hs
    · exact q hs r
    · cases hs
  | sent t o =>
    simp only [eStepS] at hs
    split at hs
    · rename_i hh x _
      cases o with
      | ok k =>
        simp only at hs
        by_cases hw : decide ((S.port t).wrote = some x.size) = true
        · rw [if_pos hw] at hs
          refine q hs (sameEnd_upd (t := t) rfl ?_)
          split
          · exact .leave _ _
          · exact ⟨rfl, rfl, fun _ h => h⟩
        · rw [if_neg hw] at hs; cases hs
      | fail k =>
        simp only [if_true] at hs
        refine q hs (sameEnd_upd (t := t) rfl ?_)
        split <;> exact .leave _ _
    · cases hs
  | readCp t =>
    simp only [eStepS] at hs
    split at hs
    · rename_i hi
      refine q hs (sameEnd_upd (t := t) rfl ?_)
      split
      · exact .leave _ _
      · exact ⟨rfl, rfl, fun _ h => by rw [hi]; exact List.mem_cons_of_mem _ h⟩
    · cases hs
  | write t n =>
    simp only [eStepS] at hs
    repeat' split at hs
    all_goals first
      | (cases hs; done)
      | (cases hs; exact sameEnd_upd (t := t) rfl (SameEnd.put _ _))
  | sendDone t =>
    simp only [eStepS] at hs
    repeat' split at hs
    all_goals first
      | (cases hs; done)
      | (cases hs; exact sameEnd_upd (t := t) rfl (SameEnd.put _ _))
  | _ =>
    simp only [eStepS] at hs
    repeat' split at hs
    all_goals first
      | (cases hs; done)
      | (cases hs; exact sameEnd_upd rfl (SameEnd.leave _ _))
      | (cases hs; exact sameEnd_upd rfl ⟨rfl, rfl, fun _ h => h⟩)
      | (exact q hs (sameEnd_upd rfl (SameEnd.leave _ _)))
      | (refine q hs (sameEnd_upd rfl ⟨rfl, rfl, fun _ h => ?_⟩); exact h)
      | (rename_i hi; refine q hs (sameEnd_upd rfl ⟨rfl, rfl, fun _ h => ?_⟩); rw [hi]; exact List.mem_cons_of_mem _ h)

/-- The step of the queue and the histories in a step of the sender. -/
theorem eStepS_sub {c : ECfg} {S S' : ESys} {e : SEv} (hs : eStepS c S e = some S') :
    S'.snd = S.snd ∨ ∃ ev, sStep S.snd ev = .ok S'.snd ∧ (∀ t, ev ≠ .returnUnacked t) ∧
      (∀ u k, ev = .localCp u k → e = .readCp u ∧ .localCp k ∈ (S.port u).inbox) ∧
      (∀ u k, ev = .globalCp u k → ∃ t l, e = .global t ∧ (S.port t).sph = .processing ((u, k) :: l) false) := by
  have q : ∀ {S0 : ESys} {ev : SEvent}, S0.snd? ev = some S' → S0.snd = S.snd → (∀ t, ev ≠ .returnUnacked t) →
      (∀ u k, ev = .localCp u k → e = .readCp u ∧ .localCp k ∈ (S.port u).inbox) →
      (∀ u k, ev = .globalCp u k → ∃ t l, e = .global t ∧ (S.port t).sph = .processing ((u, k) :: l) false) →
      S'.snd = S.snd ∨ ∃ ev, sStep S.snd ev = .ok S'.snd ∧ (∀ t, ev ≠ .returnUnacked t) ∧
      (∀ u k, ev = .localCp u k → e = .readCp u ∧ .localCp k ∈ (S.port u).inbox) ∧
      (∀ u k, ev = .globalCp u k → ∃ t l, e = .global t ∧ (S.port t).sph = .processing ((u, k) :: l) false) := by
    intro S0 ev he h0 h1 h2 h3
    obtain ⟨s', h4, rfl⟩ := snd?_some he
    rw [h0] at h4
    exact .inr ⟨ev, h4, h1, h2, h3⟩
  cases e with
  | readCp t =>
    simp only [eStepS] at hs
    split at hs
    · rename_i hi
      refine q hs rfl (by simp) ?_ (by simp)
      intro u k h
      cases h
      exact ⟨rfl, by rw [hi]; simp⟩
    · cases hs
  | global t =>
    simp only [eStepS] at hs
    split at hs
    · rename_i u cp l hi
      refine q hs rfl (by simp) (by simp) ?_
      intro u k h
      cases h
      exact ⟨t, l, rfl, hi⟩
    · cases hs
  | discover f => exact q hs rfl (by simp) (by simp) (by simp)
  | finishDiscovery => exact q hs rfl (by simp) (by simp) (by simp)
  | openOk t => exact q hs rfl (by simp) (by simp) (by simp)
  | openFail t => exact q hs rfl (by simp) (by simp) (by simp)
  | sent t o =>
    simp only [eStepS] at hs
    split at hs
    · cases o with
      | ok k =>
        simp only at hs
        split at hs
        · exact q hs rfl (by simp) (by simp) (by simp)
        · cases hs
      | fail k =>
        simp only [if_true] at hs
        exact q hs rfl (by simp) (by simp) (by simp)
    · cases hs
  | _ =>
    simp only [eStepS] at hs
    repeat' split at hs
    all_goals first
      | (cases hs; done)
      | (cases hs; exact .inl rfl)
      | (exact q hs rfl (by simp) (by simp) (by simp))

theorem ZInv.stepS {c : ECfg} {S S' : ESys} {e : SEv} (hi : PInv c S) (h : ZInv S) (hs : eStepS c S e = some S') : ZInv S' := by
  have hp := eStepS_sameEnd hs
  rcases eStepS_sub hs with hq | ⟨ev, h1, h2, h3, h4⟩
  · refine h.portStep hq fun v => ?_
    obtain ⟨a, b, d⟩ := hp v
    exact ⟨a.trans (h.port v).last, by rw [b]; exact Nat.le_refl _, fun k hk => (h.port v).loc k (d hk)⟩
  · refine h.sndStep h1 h2 rfl (fun v => hp v) ?_
    rintro u k (rfl | rfl)
    · obtain ⟨-, hk⟩ := h3 u k rfl
      exact ⟨(h.port u).loc k hk, by rw [((hi.loc u).loc k hk).2.2.1]; exact Int.le_refl _⟩
    · obtain ⟨t, l, -, hk⟩ := h4 u k rfl
      obtain ⟨k1, k2⟩ := (hi.thr t).pr1 _ _ hk (u, k) (by simp)
      have k3 : k = S.cpv u := k2
      have k4 : S.cpv u = (S.port u).cp := ((hi.loc u).failed k1).2.2.2.2
      rw [k3, k4]
      exact ⟨zero_cp (h.port u).last, Int.le_refl _⟩

/-- What a step of the receiver may do to a port. -/
def GrowsEnd (p p' : Port) : Prop :=
  p'.last = none ∧ p.counted.length ≤ p'.counted.length ∧ ∀ k, .localCp k ∈ p'.inbox → ZeroCp k

theorem growsEnd_upd {S S' : ESys} (hz : ZInv S) {t : Nat} {p : Port} (hp : S'.port = upd S.port t p) (h : GrowsEnd (S.port t) p) :
    ∀ v, GrowsEnd (S.port v) (S'.port v) := by
  intro v
  rw [hp, upd_apply]
  split
  · rename_i e; subst e; exact h
  · exact ⟨(hz.port v).last, Nat.le_refl _, (hz.port v).loc⟩

theorem grows_reply {p : Port} {h : Hist} (hz : ZPort p h) (p' : Port) (m : DCmd) (h1 : p'.last = none) (h2 : p'.counted = p.counted)
    (h3 : p'.inbox = p.inbox) (hm : ∀ k, m = .localCp k → ZeroCp k) : GrowsEnd p (p'.reply m) := by
  unfold Port.reply
  split
  · refine ⟨h1, by simp [h2], fun k hk => ?_⟩
    simp only [h3, List.mem_append, List.mem_singleton] at hk
    rcases hk with hk | hk
    · exact hz.loc k hk
    · exact hm k hk.symm
  · exact ⟨h1, by simp [h2], fun k hk => hz.loc k (h3 ▸ hk)⟩

theorem ZInv.stepR {c : ECfg} {S S' : ESys} {e : WEv} (hc : (c.tagged || c.footer) = true) (h : ZInv S)
    (hs : eStepR c S e = some S') : ZInv S' := by
  have q : ∀ {S0 : ESys} {ev : REvent}, S0.rcv? c ev = some S' → S0.snd = S.snd → (∀ v, GrowsEnd (S.port v) (S0.port v)) → ZInv S' := by
    intro S0 ev he h0 h1
    obtain ⟨r', -, rfl⟩ := rcv?_some he
    exact h.portStep h0 h1
  have own : ∀ v, GrowsEnd (S.port v) (S.port v) := fun v => ⟨(h.port v).last, Nat.le_refl _, (h.port v).loc⟩
  have up : ∀ {S1 : ESys} {t : Nat} {p : Port}, S1.port = upd S.port t p → p.last = none →
      (S.port t).counted.length ≤ p.counted.length → p.inbox = (S.port t).inbox → ∀ v, GrowsEnd (S.port v) (S1.port v) :=
    fun h1 h2 h3 h4 => growsEnd_upd h h1 ⟨h2, h3, fun k hk => (h.port _).loc k (h4 ▸ hk)⟩
  have lst : ∀ b w, c.lastOf b w = none := by intro b w; simp [ECfg.lastOf, hc]
  have la : ∀ v, (S.port v).last = none := fun v => (h.port v).last
  cases e with
  | accept1 t =>
    simp only [eStepR] at hs
    split at hs
    · split at hs
      · cases hs; exact h.portStep rfl (up (t := t) rfl (la t) (Nat.le_refl _) rfl)
      · split at hs
        · cases hs; exact h.portStep rfl (up (t := t) rfl (la t) (Nat.le_refl _) rfl)
        · cases hs
    · cases hs
  | accept t ok =>
    simp only [eStepR] at hs
    split at hs
    · split at hs
      · exact q hs rfl (growsEnd_upd h (t := t) rfl (grows_reply (h.port t) _ _ (la t) rfl rfl (by
          intro k hk; cases hk; exact zero_cp (la t))))
      · cases hs
    · exact q hs rfl (up (t := t) rfl (la t) (Nat.le_refl _) rfl)
  | recv t =>
    simp only [eStepR] at hs
    split at hs
    · split at hs
      · refine q hs rfl (up (t := t) rfl ?_ ?_ ?_)
        · split <;> rfl
        · split <;> simp
        · split <;> rfl
      · cases hs
    · cases hs
  | recvPart t w fatal =>
    simp only [eStepR] at hs
    split at hs
    · split at hs
      · split at hs
        · rename_i S1 h1
          obtain ⟨r', -, rfl⟩ := rcv?_some h1
          refine q hs rfl (up (t := t) rfl ?_ ?_ ?_)
          · split <;> exact lst _ _
          · split <;> exact Nat.le_refl _
          · split <;> rfl
        · cases hs
      · cases hs
    · cases hs
  | recvDone t =>
    simp only [eStepR] at hs
    split at hs
    · exact q hs rfl (up (t := t) rfl (la t) (Nat.le_refl _) rfl)
    · cases hs
  | lost t reset fatal =>
    have hl : (if reset = true then none else (S.port t).last) = none := by split <;> first | rfl | exact la t
    simp only [eStepR] at hs
    split at hs
    · exact q hs rfl (up (t := t) rfl hl (Nat.le_refl _) rfl)
    · split at hs
      · exact q hs rfl (up (t := t) rfl hl (Nat.le_refl _) rfl)
      · cases hs
  | verify t =>
    simp only [eStepR] at hs
    split at hs
    · cases hs; exact h.portStep rfl (up (t := t) rfl (la t) (by simp) rfl)
    · cases hs
  | query t =>
    simp only [eStepR] at hs
    split at hs
    · rename_i S1 h1
      cases hs
      obtain ⟨r', -, rfl⟩ := rcv?_some h1
      exact h.portStep rfl own
    · cases hs
  | sendGlobal t ok =>
    simp only [eStepR] at hs
    cases ok with
    | true => exact q hs rfl (growsEnd_upd h (t := t) rfl (grows_reply (h.port t) _ _ (la t) rfl rfl (by simp)))
    | false => exact q hs rfl (up (t := t) rfl (la t) (Nat.le_refl _) rfl)
  | sendWait t ok =>
    simp only [eStepR] at hs
    split at hs
    · split at hs
      · cases hs; exact h.portStep rfl (growsEnd_upd h (t := t) rfl (grows_reply (h.port t) _ _ (la t) rfl rfl (by simp)))
      · cases hs
    · exact q hs rfl (up (t := t) rfl (la t) (Nat.le_refl _) rfl)
  | writeDone t =>
    simp only [eStepR] at hs
    split at hs
    · cases hs; exact h.portStep rfl (growsEnd_upd h (t := t) rfl (grows_reply (h.port t) _ _ (la t) rfl rfl (by simp)))
    · cases hs
  | doneSent t ok =>
    simp only [eStepR] at hs
    cases ok with
    | true => exact q hs rfl (up (t := t) rfl (la t) (by simp) rfl)
    | false => exact q hs rfl (up (t := t) rfl (la t) (Nat.le_refl _) rfl)
  | vanish t =>
    simp only [eStepR] at hs
    split at hs
    · cases hs; exact h.portStep rfl (up (t := t) rfl (la t) (Nat.le_refl _) rfl)
    · cases hs
  | vanishMore t =>
    simp only [eStepR] at hs
    split at hs
    · cases hs; exact h.portStep rfl (up (t := t) rfl (la t) (Nat.le_refl _) rfl)
    · cases hs
  | silentEnd t =>
    simp only [eStepR] at hs
    exact q hs rfl (up (t := t) rfl (la t) (Nat.le_refl _) rfl)
  | failed t => exact q (S0 := { S with cpv := upd S.cpv t (S.port t).cp }) hs rfl own
  | _ => exact q hs rfl own

theorem ZInv.init (c : ECfg) (mb : Int) (del : Bool) : ZInv (ESys.init c mb del) := by
  have hthr : ∀ v, (ESys.init c mb del).snd.thr v = {} := by
    intro v
    simp only [ESys.init, SSys.init, SSys.thr, List.getD_eq_getElem?_getD, List.getElem?_replicate]
    split <;> rfl
  constructor
  · intro v
    rw [hthr]
    exact ⟨rfl, by simp [ESys.init], by simp⟩
  · rintro x (hx | ⟨th, hth, hx⟩)
    · simp [ESys.init, SSys.init] at hx
    · simp only [ESys.init, SSys.init, List.mem_replicate] at hth
      rw [hth.2, thread_mem] at hx
      simp at hx

theorem ZInv.run {c : ECfg} (hc : (c.tagged || c.footer) = true) {mb : Int} {del : Bool} : ∀ {es : List EEvent} {S S' : ESys},
    Good c mb del S → ZInv S → eRun c S es = some S' → ZInv S' := by
  intro es
  induction es with
  | nil => intro S S' _ hz h; cases h; exact hz
  | cons e es ih =>
    intro S S' hg hz h
    simp only [eRun] at h
    split at h
    · rename_i S1 h1
      have hg1 : Good c mb del S1 := hg.run (es := [e]) (by simp [eRun, h1])
      cases e with
      | s e => exact ih hg1 (hz.stepS hg.p h1) h
      | v e => exact ih hg1 (hz.stepR hc h1) h
    · cases h

end Wdt
