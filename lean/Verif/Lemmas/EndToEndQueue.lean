import Verif.Lemmas.EndToEndPorts
/-
The sender's queue in a whole transfer: when all threads are idle it is empty, and blocks that
have arrived stay arrived.
-/
namespace Wdt

/-- Is a block in the queue or held by a thread? -/
def SSys.Held (s : SSys) (x : Source) : Prop := x ∈ s.q.queue ∨ ∃ th ∈ s.threads, x ∈ th.all

/-- A condition on blocks that stays true when part of the block is taken off its front. -/
def Stable (P : Source → Prop) : Prop := ∀ x y : Source, y.key = x.key → x.offset ≤ y.offset → P x → P y

theorem held_gaveBack {P : Source → Prop} {s : SSys} {t : Nat} {th' : SThread} {l : List (Source × Source)}
    (h : ∀ x, s.Held x → P x) (ht : ∀ x ∈ th'.all, P x) (hl : ∀ p ∈ l, P p.2) :
    ∀ x, (gaveBack s t th' l).Held x → P x := by
  intro x hx
  rcases hx with hx | ⟨th, hth, hx⟩
  · simp only [gaveBack, List.mem_append, List.mem_map] at hx
    rcases hx with hx | ⟨p, hp, rfl⟩
    · exact h x (.inl hx)
    · exact hl p hp
  · simp only [gaveBack] at hth
    rcases mem_set_cases _ _ _ _ hth with rfl | hth
    · exact ht x hx
    · exact h x (.inr ⟨th, hth, hx⟩)

theorem held_set {P : Source → Prop} {s s' : SSys} {t : Nat} {th' : SThread} (hq : ∀ x ∈ s'.q.queue, x ∈ s.q.queue)
    (hs : s'.threads = s.threads.set t th') (h : ∀ x, s.Held x → P x) (ht : ∀ x ∈ th'.all, P x) :
    ∀ x, s'.Held x → P x := by
  intro x hx
  rcases hx with hx | ⟨th, hth, hx⟩
  · exact h x (.inl (hq x hx))
  · rw [hs] at hth
    rcases mem_set_cases _ _ _ _ hth with rfl | hth
    · exact ht x hx
    · exact h x (.inr ⟨th, hth, hx⟩)

/-- A condition on blocks that stays true when a checkpoint that satisfies `G` is applied. -/
def StableUnder (G : Checkpoint → Prop) (P : Source → Prop) : Prop :=
  ∀ (x y : Source) (cp : Option Checkpoint), (∀ k, cp = some k → G k) → y.key = x.key →
    (y.offset = x.offset ∨ y.offset = x.offset + cpBytes x cp) → P x → P y

theorem Stable.under {P : Source → Prop} (hP : Stable P) : StableUnder CpNonneg P := by
  intro x y cp hn hk ho hx
  refine hP _ _ hk ?_ hx
  have := cpBytes_nonneg (x := x) hn
  omega

theorem Returned.stable {G : Checkpoint → Prop} {P : Source → Prop} (hP : StableUnder G P) {cp : Option Checkpoint} {orig : List Source}
    {l : List (Source × Source)} (h : Returned cp orig l) (hn : ∀ k, cp = some k → G k) (ho : ∀ x ∈ orig, P x) :
    ∀ p ∈ l, P p.2 := by
  intro p hp
  obtain ⟨h1, h2, h3⟩ := h p hp
  exact hP _ _ cp hn h2 h3 (ho _ h1)

/-- Steps of sender threads, without discovery. -/
def SEvent.ofThread : SEvent → Bool
  | .discover _ | .finishDiscovery | .setPrev _ | .returnUnacked _ => false
  | _ => true

theorem held_stepG {G : Checkpoint → Prop} {P : Source → Prop} (hP : StableUnder G P) {s s' : SSys} {e : SEvent} (he : e.ofThread = true)
    (hc : e.Cps G) (hst : ∀ th ∈ s.threads, ∀ k, th.hist.lastCp = some k → G k)
    (h : sStep s e = .ok s') (hh : ∀ x, s.Held x → P x) :
    (∀ x, s'.Held x → P x) ∧ s'.q.initFinished = s.q.initFinished := by
  have mem : ∀ {t : Nat} {th : SThread}, s.threads[t]? = some th → ∀ x ∈ th.all, P x :=
    fun hth x hx => hh x (.inr ⟨_, List.mem_of_getElem? hth, hx⟩)
  have app : ∀ {t : Nat} {th : SThread} {cp : Checkpoint} {g : Bool}, s.threads[t]? = some th → G cp →
      applyCp s t th (setCheckpoint th.hist cp g) = .ok s' → (∀ x, s'.Held x → P x) ∧ s'.q.initFinished = s.q.initFinished := by
    intro t th cp g hth hcp h
    obtain ⟨H', l, rfl, hr, -, hcase⟩ := applyCp_shape h
    have hm := mem hth
    have hist : ∀ x ∈ th.hist.history, P x := fun x hx => hm x (by rw [thread_mem]; exact .inr (.inr hx))
    refine ⟨held_gaveBack hh ?_ (hr.stable hP (by rintro k ⟨⟩; exact hcp) hist), rfl⟩
    intro x hx
    rw [thread_mem] at hx
    rcases hx with hx | hx | hx
    · exact hm x (by rw [thread_mem]; exact .inl hx)
    · exact hm x (by rw [thread_mem]; exact .inr (.inl hx))
    · rcases hcase with ⟨-, rfl, -⟩ | ⟨-, -, -, hH, -, -⟩
      · exact hist x hx
      · simp only [hH] at hx
        exact hist x (List.mem_of_mem_take hx)
  cases e with
  | discover f => cases he
  | finishDiscovery => cases he
  | setPrev i => cases he
  | returnUnacked t => cases he
  | pop t x =>
    obtain ⟨th, hth, ho, hcu, -, hx, rfl⟩ := sStep_pop h
    refine ⟨held_set (s := s) (t := t) (fun y hy => List.mem_of_mem_erase hy) rfl hh ?_, rfl⟩
    intro y hy
    rw [thread_mem] at hy
    rcases hy with hy | hy | hy
    · cases hy; exact hh _ (.inl hx)
    · exact mem hth y (by rw [thread_mem]; exact .inr (.inl hy))
    · exact mem hth y (by rw [thread_mem]; exact .inr (.inr hy))
  | openOk t =>
    obtain ⟨th, x, hth, ho, hcu, rfl⟩ := sStep_openOk h
    refine ⟨held_set (s := s) (t := t) (fun y hy => hy) rfl hh ?_, rfl⟩
    intro y hy
    rw [thread_mem] at hy
    rcases hy with hy | hy | hy
    · cases hy
    · cases hy
      have hx := mem hth x (by rw [thread_mem]; exact .inl ho)
      obtain ⟨-, h2, h3, -⟩ := openedSource_wire x
      exact hP _ _ none (by simp) h2 (.inl h3) hx
    · exact mem hth y (by rw [thread_mem]; exact .inr (.inr hy))
  | openFail t =>
    obtain ⟨th, x, hth, ho, hcu, rfl⟩ := sStep_openFail h
    refine ⟨held_set (s := s) (t := t) (fun y hy => hy) rfl hh ?_, rfl⟩
    intro y hy
    rw [thread_mem] at hy
    rcases hy with hy | hy | hy
    · cases hy
    · exact mem hth y (by rw [thread_mem]; exact .inr (.inl hy))
    · exact mem hth y (by rw [thread_mem]; exact .inr (.inr hy))
  | sent t o =>
    have h0 := h
    simp only [sStep] at h0
    split at h0
    · rename_i hist x hth
      obtain ⟨H', l, rfl, -, -, hcase⟩ := sStep_sent hth rfl rfl h
      have hx := mem hth x (by rw [thread_mem]; exact .inr (.inl rfl))
      have hm : ∀ y ∈ hist.history, P y := fun y hy => mem hth y (by rw [thread_mem]; exact .inr (.inr hy))
      rcases hcase with ⟨-, ⟨x', k1, k2, -, k4⟩, -, rfl⟩ | ⟨-, k1, -, x', k2, k3, -, k4⟩
      · refine ⟨held_gaveBack hh ?_ (by simp), rfl⟩
        intro y hy
        rw [thread_mem] at hy
        rcases hy with hy | hy | hy
        · cases hy
        · cases hy
        · simp only [k4, List.mem_append, List.mem_singleton] at hy
          rcases hy with hy | rfl
          · exact hm y hy
          · exact hP _ _ none (by simp) k1 (.inl k2) hx
      · refine ⟨held_gaveBack hh ?_ (k4.stable hP (fun k hk => hst _ (List.mem_of_getElem? hth) k hk) ?_), rfl⟩
        · intro y hy
          rw [thread_mem] at hy
          rcases hy with hy | hy | hy
          · cases hy
          · cases hy
          · simp only [k1] at hy; exact hm y hy
        · intro y hy
          simp only [List.mem_singleton] at hy
          subst hy
          exact hP _ _ none (by simp) k2 (.inl k3) hx
    · cases h0
  | localCp t cp =>
    obtain ⟨th, hth, -, -, -, h⟩ := sStep_localCp h
    exact app hth hc h
  | globalCp t cp =>
    by_cases ht : t < s.threads.length
    · exact app (some_of_lt ht) hc (sStep_globalCp ht h)
    · simp only [sStep, List.getElem?_eq_none (Nat.le_of_not_lt ht)] at h
      cases h
      exact ⟨hh, rfl⟩
  | markAll t =>
    obtain ⟨th, hth, rfl⟩ := sStep_markAll h
    refine ⟨held_set (s := s) (t := t) (fun y hy => hy) rfl hh ?_, rfl⟩
    exact fun y hy => mem hth y hy
  | exit t =>
    obtain ⟨th, hth, -, -, rfl⟩ := sStep_exit h
    refine ⟨held_set (s := s) (t := t) (fun y hy => hy) rfl hh ?_, rfl⟩
    exact fun y hy => mem hth y hy

theorem held_step {P : Source → Prop} (hP : Stable P) {s s' : SSys} {e : SEvent} (he : e.ofThread = true)
    (hc : e.Cps CpNonneg) (hst : ∀ th ∈ s.threads, ∀ k, th.hist.lastCp = some k → CpNonneg k)
    (h : sStep s e = .ok s') (hh : ∀ x, s.Held x → P x) :
    (∀ x, s'.Held x → P x) ∧ s'.q.initFinished = s.q.initFinished :=
  held_stepG hP.under he hc hst h hh

/-- Credits. -/
theorem cred_step {G : Checkpoint → Prop} {C : Credit → Prop}
    (hC : ∀ x y cp, (∀ k, cp = some k → G k) → y.key = x.key → (y.offset = x.offset ∨ y.offset = x.offset + cpBytes x cp) →
      C (creditOf (x, y)))
    {s s' : SSys} {e : SEvent} (he : ∀ t, e ≠ .returnUnacked t)
    (hc : e.Cps G) (hst : ∀ th ∈ s.threads, ∀ k, th.hist.lastCp = some k → G k)
    (h : sStep s e = .ok s') (hh : ∀ k ∈ s.credits, C k) : ∀ k ∈ s'.credits, C k := by
  have gb : ∀ {t : Nat} {th' : SThread} {l : List (Source × Source)} {cp : Option Checkpoint} {orig : List Source}, Returned cp orig l → (∀ k, cp = some k → G k) → ∀ k ∈ (gaveBack s t th' l).credits, C k := by
    intro t th' l cp orig hr hg k hk
    simp only [gaveBack, List.mem_append, List.mem_map] at hk
    rcases hk with hk | ⟨p, hp, rfl⟩
    · exact hh k hk
    · obtain ⟨-, h2, h3⟩ := hr p hp
      exact hC p.1 p.2 cp hg h2 h3
  have app : ∀ {t : Nat} {th : SThread} {cp : Checkpoint} {g : Bool}, s.threads[t]? = some th → G cp →
      applyCp s t th (setCheckpoint th.hist cp g) = .ok s' → ∀ k ∈ s'.credits, C k := by
    intro t th cp g hth hcp h
    obtain ⟨H', l, rfl, hr, -, -⟩ := applyCp_shape h
    exact gb hr (by rintro k ⟨⟩; exact hcp)
  cases e with
  | discover f => rw [(sStep_discover h).2.2]; exact hh
  | finishDiscovery => rw [(sStep_finishDiscovery h).2.2]; exact hh
  | setPrev i => rw [(sStep_setPrev h).2]; exact hh
  | returnUnacked t => exact absurd rfl (he t)
  | pop t x =>
    obtain ⟨th, hth, ho, hcu, -, hx, rfl⟩ := sStep_pop h
    exact hh
  | openOk t =>
    obtain ⟨th, x, hth, ho, hcu, rfl⟩ := sStep_openOk h
    exact hh
  | openFail t =>
    obtain ⟨th, x, hth, ho, hcu, rfl⟩ := sStep_openFail h
    exact hh
  | sent t o =>
    have h0 := h
    simp only [sStep] at h0
    split at h0
    · rename_i hist x hth
      obtain ⟨H', l, rfl, -, -, hcase⟩ := sStep_sent hth rfl rfl h
      rcases hcase with ⟨-, -, -, rfl⟩ | ⟨-, -, -, x', -, -, -, k4⟩
      · simpa [gaveBack] using hh
      · exact gb k4 (fun k hk => hst _ (List.mem_of_getElem? hth) k hk)
    · cases h0
  | localCp t cp =>
    obtain ⟨th, hth, -, -, -, h⟩ := sStep_localCp h
    exact app hth hc h
  | globalCp t cp =>
    by_cases ht : t < s.threads.length
    · exact app (some_of_lt ht) hc (sStep_globalCp ht h)
    · simp only [sStep, List.getElem?_eq_none (Nat.le_of_not_lt ht)] at h
      cases h
      exact hh
  | markAll t =>
    obtain ⟨th, hth, rfl⟩ := sStep_markAll h
    exact hh
  | exit t =>
    obtain ⟨th, hth, -, -, rfl⟩ := sStep_exit h
    exact hh

/-! ### When all threads are idle the queue is empty -/

/-- Threads that another one waits for, and the queue. -/
structure BInv (c : ECfg) (S : ESys) : Prop where
  fw : ∀ u, (S.snd.thr u).hist.globalCp = true → (S.snd.thr u).hist.inUse = true →
    ∃ w k l, (S.port w).sph = .processing ((u, k) :: l) true
  q : 0 < c.n → (∀ v, v < c.n → (S.port v).idle = true ∨ S.ctx.handled v) → S.snd.q.queue = [] ∧ S.snd.q.initFinished = true

/-- Every thread keeps its state, apart from `t`. -/
theorem BInv.keepFw {c : ECfg} {S S' : ESys} (hb : BInv c S) (t : Nat)
    (hp : ∀ v, v ≠ t → (S'.port v).sph = (S.port v).sph)
    (hu : ∀ u, (S'.snd.thr u).hist.globalCp = true → (S'.snd.thr u).hist.inUse = true →
      (S.snd.thr u).hist.globalCp = true ∧ (S.snd.thr u).hist.inUse = true)
    (ht : ∀ u k l, (S.port t).sph = .processing ((u, k) :: l) true → (S'.snd.thr u).hist.inUse = false ∨ (S'.port t).sph = (S.port t).sph) :
    ∀ u, (S'.snd.thr u).hist.globalCp = true → (S'.snd.thr u).hist.inUse = true →
      ∃ w k l, (S'.port w).sph = .processing ((u, k) :: l) true := by
  intro u h1 h2
  obtain ⟨h3, h4⟩ := hu u h1 h2
  obtain ⟨w, k, l, hw⟩ := hb.fw u h3 h4
  by_cases hwt : w = t
  · subst hwt
    rcases ht u k l hw with h | h
    · rw [h] at h2; cases h2
    · exact ⟨w, k, l, h.trans hw⟩
  · exact ⟨w, k, l, (hp w hwt).trans hw⟩

theorem BInv.keepQ {c : ECfg} {S S' : ESys} (hb : BInv c S) (hq : S'.snd.q.queue = S.snd.q.queue)
    (hf : S'.snd.q.initFinished = S.snd.q.initFinished) (hi : ∀ v, (S'.port v).idle = true → (S.port v).idle = true)
    (hh : ∀ v, S'.ctx.handled v → S.ctx.handled v) :
    0 < c.n → (∀ v, v < c.n → (S'.port v).idle = true ∨ S'.ctx.handled v) → S'.snd.q.queue = [] ∧ S'.snd.q.initFinished = true := by
  intro hn ha
  rw [hq, hf]
  exact hb.q hn fun v hv => (ha v hv).imp (hi v) (hh v)

theorem busyQ {c : ECfg} {S' : ESys} (v : Nat) (hv : v < c.n) (hi : (S'.port v).idle = false)
    (hu : (S'.snd.thr v).hist.inUse = true) {P : Prop} :
    0 < c.n → (∀ v, v < c.n → (S'.port v).idle = true ∨ S'.ctx.handled v) → P := by
  intro _ ha
  rcases ha v hv with h | h
  · rw [hi] at h; cases h
  · have := h.2
    simp only [ESys.ctx, hu] at this; cases this

/-- A thread that is not at its end is in use. -/
theorem PInv.using {c : ECfg} {S : ESys} (hi : PInv c S) {t : Nat} (h : ∀ ok, (S.port t).sph ≠ .ended ok) :
    (S.snd.thr t).hist.inUse = true := by
  cases hu : (S.snd.thr t).hist.inUse with
  | true => rfl
  | false =>
    obtain ⟨ok, ho⟩ := (hi.loc t).use hu
    exact absurd ho (h ok)

theorem BInv.port {c : ECfg} {S : ESys} (hb : BInv c S) (t : Nat) (p' : Port) (b : Bool)
    (hi : p'.idle = true → (S.port t).idle = true ∨ (S.snd.q.queue = [] ∧ S.snd.q.initFinished = true))
    (ht : ∀ u k l, (S.port t).sph = .processing ((u, k) :: l) true → (S.snd.thr u).hist.inUse = false ∨ p'.sph = (S.port t).sph) :
    BInv c { S.setP t p' with began := b } where
  fw := hb.keepFw t (fun v hv => by simp [ESys.setP, upd_ne _ _ hv]) (fun u h1 h2 => ⟨h1, h2⟩)
    (fun u k l h => by simpa [ESys.setP, upd_self] using ht u k l h)
  q := by
    intro hn ha
    by_cases hx : S.snd.q.queue = [] ∧ S.snd.q.initFinished = true
    · exact hx
    · refine hb.q hn fun v hv => ?_
      rcases ha v hv with h | h
      · by_cases hvt : v = t
        · subst hvt
          simp only [ESys.setP, upd_self] at h
          exact .inl ((hi h).resolve_right hx)
        · simp only [ESys.setP, upd_ne _ _ hvt] at h
          exact .inl h
      · exact .inr h

/-- Thread `t`, which is busy, changes its port and its history. -/
theorem BInv.busy {c : ECfg} {S : ESys} (hi : PInv c S) (hb : BInv c S) {t : Nat} {th th' : SThread} {s' : SSys} (p' : Port) (b r : Bool)
    (hth : S.snd.threads[t]? = some th) (hs : s'.threads = S.snd.threads.set t th')
    (hg : th'.hist.globalCp = true → th.hist.globalCp = true) (hu : th'.hist.inUse = th.hist.inUse)
    (hp : ∀ l w, (S.port t).sph ≠ .processing l w) (he : ∀ ok, (S.port t).sph ≠ .ended ok) (hid : p'.idle = false) :
    BInv c { S.setP t p' with snd := s', began := b, refused := r } := by
  have e1 := thr_of_some hth
  have e2 := thr_set hth hs
  have huse := hi.using he
  rw [e1] at huse
  refine ⟨hb.keepFw t (fun v hv => by simp [ESys.setP, upd_ne _ _ hv]) ?_ (fun u k l h => absurd h (hp _ _)),
    busyQ t (by rw [← hi.len]; exact lt_of_some hth) (by simpa [ESys.setP, upd_self] using hid) (by simp [e2, upd_self, hu, huse])⟩
  intro u h1 h2
  simp only [e2, upd_apply] at h1 h2
  by_cases hut : u = t
  · subst hut
    simp only [if_true] at h1 h2
    rw [e1]; exact ⟨hg h1, by rw [← hu]; exact h2⟩
  · simp only [hut, if_false] at h1 h2
    exact ⟨h1, h2⟩

/-- A thread changes only what does not matter here. -/
theorem BInv.acked {c : ECfg} {S : ESys} (hb : BInv c S) {t : Nat} {th : SThread} (p' : Port) (H' : Hist) {s' : SSys}
    (hth : S.snd.threads[t]? = some th) (hs : s'.threads = S.snd.threads.set t { th with hist := H' })
    (hq : s'.q.queue = S.snd.q.queue) (hf : s'.q.initFinished = S.snd.q.initFinished)
    (hg : H'.globalCp = th.hist.globalCp) (hu : H'.inUse = th.hist.inUse)
    (hid : p'.idle = true → (S.port t).idle = true) (hp : ∀ l w, (S.port t).sph ≠ .processing l w) :
    BInv c { S.setP t p' with snd := s' } := by
  have e1 := thr_of_some hth
  have e2 := thr_set hth hs
  have key : ∀ u, (s'.thr u).hist.globalCp = (S.snd.thr u).hist.globalCp ∧ (s'.thr u).hist.inUse = (S.snd.thr u).hist.inUse := by
    intro u
    simp only [e2, upd_apply]
    by_cases hut : u = t
    · subst hut; simp only [if_true, e1]; exact ⟨hg, hu⟩
    · simp only [hut, if_false]; exact ⟨trivial, trivial⟩
  refine ⟨hb.keepFw t (fun v hv => by simp [ESys.setP, upd_ne _ _ hv]) ?_ (fun u k l h => absurd h (hp _ _)),
    hb.keepQ hq hf ?_ ?_⟩
  · intro u h1 h2
    simp only [(key u).1, (key u).2] at h1 h2
    exact ⟨h1, h2⟩
  · intro v hv
    by_cases hvt : v = t
    · subst hvt; simp only [ESys.setP, upd_self] at hv; exact hid hv
    · simpa [ESys.setP, upd_ne _ _ hvt] using hv
  · intro v hv
    have h1 := hv.1
    have h2 := hv.2
    simp only [ESys.ctx, (key v).1, (key v).2] at h1 h2
    exact ⟨h1, h2⟩

theorem BInv.stepS {c : ECfg} {S S' : ESys} {e : SEv} (hi : PInv c S) (hb : BInv c S) (h : eStepS c S e = some S') :
    BInv c S' := by
  cases e with
  | discover f =>
    obtain ⟨s', h1, rfl⟩ := snd?_some h
    obtain ⟨h2, h3, -⟩ := sStep_discover h1
    refine ⟨by simpa [thr_same h3] using hb.fw, fun hn ha => ?_⟩
    have := hb.q hn (by simpa [ESys.ctx, Ctx.handled, thr_same h3] using ha)
    rw [h2] at this; cases this.2
  | finishDiscovery =>
    obtain ⟨s', h1, rfl⟩ := snd?_some h
    obtain ⟨h2, h3, -⟩ := sStep_finishDiscovery h1
    refine ⟨by simpa [thr_same h3] using hb.fw, fun hn ha => ?_⟩
    have := hb.q hn (by simpa [ESys.ctx, Ctx.handled, thr_same h3] using ha)
    rw [h2] at this; cases this.2
  | setPrev infos =>
    simp only [eStepS] at h
    split at h
    · cases h
    · rename_i hbeg
      obtain ⟨s', h1, rfl⟩ := snd?_some h
      have h3 := (sStep_setPrev h1).1
      refine ⟨by simpa [thr_same h3] using hb.fw, fun hn ha => ?_⟩
      have hg := (hi.thr 0).bg (by simpa [ESys.ctx] using hbeg)
      rcases ha 0 hn with h4 | h4
      · simp only [hg.1] at h4; cases h4
      · have := h4.1
        simp only [ESys.ctx, thr_same h3, hg.2.1] at this; cases this
  | connect t =>
    simp only [eStepS] at h
    split at h
    · split at h
      · rename_i hp
        cases h
        exact hb.port t _ S.began (fun h => .inl h) (fun u k l h => by rw [hp] at h; cases h)
      · rename_i hp
        cases h
        exact hb.port t _ S.began (fun h => .inl h) (fun u k l h => by rw [hp] at h; cases h)
      · cases h
    · cases h
  | pop t x =>
    simp only [eStepS] at h
    split at h
    · rename_i hp
      obtain ⟨s', h1, rfl⟩ := snd?_some h
      obtain ⟨th, hth, ho, hcu, hin, hx, rfl⟩ := sStep_pop h1
      have := hb.busy hi (t := t) (th' := { th with opening := some x }) (s' := { S.snd with q := { S.snd.q with queue := S.snd.q.queue.erase x }, threads := S.snd.threads.set t { th with opening := some x } }) (S.port t) true S.refused hth rfl id rfl (by rw [hp]; simp) (by rw [hp]; simp) ((hi.loc t).send (.inl hp)).1
      simpa [ESys.setP, upd_same] using this
    · cases h
  | openOk t =>
    obtain ⟨s', h1, rfl⟩ := snd?_some h
    obtain ⟨th, x, hth, ho, hcu, rfl⟩ := sStep_openOk h1
    have hp := (hi.loc t).busy (.inl (by rw [thr_of_some hth, ho]; rfl))
    have := hb.busy hi (t := t) (th' := { th with opening := none, cur := some (openedSource x) }) (s' := { S.snd with q := { S.snd.q with deq := S.snd.q.deq + 1 }, threads := S.snd.threads.set t { th with opening := none, cur := some (openedSource x) } }) (S.port t) S.began S.refused hth rfl id rfl (by rw [hp]; simp) (by rw [hp]; simp) ((hi.loc t).send (.inl hp)).1
    simpa [ESys.setP, upd_same] using this
  | openFail t =>
    obtain ⟨s', h1, rfl⟩ := snd?_some h
    obtain ⟨th, x, hth, ho, hcu, rfl⟩ := sStep_openFail h1
    have hp := (hi.loc t).busy (.inl (by rw [thr_of_some hth, ho]; rfl))
    have := hb.busy hi (t := t) (th' := { th with opening := none }) (s' := { S.snd with q := { S.snd.q with failed := S.snd.q.failed ++ [openFailedSource x] }, threads := S.snd.threads.set t { th with opening := none } }) (S.port t) S.began S.refused hth rfl id rfl (by rw [hp]; simp) (by rw [hp]; simp) ((hi.loc t).send (.inl hp)).1
    simpa [ESys.setP, upd_same] using this
  | write t n =>
    simp only [eStepS] at h
    split at h
    · rename_i hh x hth
      split at h
      · rename_i hc
        cases h
        exact hb.port t _ S.began (fun h => .inl (by revert h; unfold Port.put; split <;> exact id))
          (fun u k l h => by rw [hc.1] at h; cases h)
      · cases h
    · cases h
  | sent t o =>
    simp only [eStepS] at h
    split at h
    · rename_i hh x hth
      have hp := (hi.loc t).busy (.inr (by rw [thr_of_some hth]; rfl))
      have hid := ((hi.loc t).send (.inl hp)).1
      have key : ∀ s' p', sStep S.snd (.sent t o) = .ok s' → p'.idle = false → BInv c { S.setP t p' with snd := s' } := by
        intro s' p' h1 hp'
        obtain ⟨H', l, rfl, hu, hg, -⟩ := sStep_sent (th := ⟨hh, none, some x⟩) hth rfl rfl h1
        exact hb.busy hi (t := t) (th' := ⟨H', none, none⟩) (s' := gaveBack S.snd t ⟨H', none, none⟩ l) p' S.began S.refused hth rfl (by rw [hg]; exact id) hu (by rw [hp]; simp) (by rw [hp]; simp) hp'
      cases o with
      | ok hb =>
        simp only at h
        split at h
        · obtain ⟨s', h1, rfl⟩ := snd?_some h
          exact key s' _ h1 (by split <;> exact hid)
        · cases h
      | fail d =>
        simp only [if_true] at h
        obtain ⟨s', h1, rfl⟩ := snd?_some h
        exact key s' _ h1 (by split <;> exact hid)
    · cases h
  | sendDone t =>
    simp only [eStepS] at h
    split at h
    · rename_i hh hth
      split at h
      · rename_i hc
        cases h
        exact hb.port t _ true (fun _ => .inr hc.2) (fun u k l h => by rw [hc.1] at h; cases h)
      · cases h
    · cases h
  | lose t =>
    simp only [eStepS] at h
    split at h
    · rename_i hh hth
      split at h
      · rename_i hc
        cases h
        exact hb.port t _ S.began (fun h => .inl h) (fun u k l h => by rw [h] at hc; simp at hc)
      · cases h
    · cases h
  | readCp t =>
    simp only [eStepS] at h
    split at h
    · rename_i cp rest hp hin
      obtain ⟨s', h1, rfl⟩ := snd?_some h
      obtain ⟨th, hth, h2, h3, h4, h5⟩ := sStep_localCp h1
      have hh : S.hist t = th.hist := by simp [ESys.hist, List.getD_eq_getElem?_getD, show S.snd.threads[t]? = some th from hth]
      obtain ⟨H', l, rfl, hr, hu, hcase⟩ := applyCp_shape h5
      rw [hh]
      rcases hcase with ⟨hc1, rfl, rfl⟩ | ⟨hc1, -, -, -, -, hg⟩
      · rw [if_pos hc1]
        exact hb.acked _ th.hist hth rfl (by simp [gaveBack, ESys.setP]) rfl rfl rfl id (by rw [hp]; simp)
      · rw [if_neg (by simp [hc1])]
        exact hb.busy hi _ S.began S.refused hth rfl (by rw [hg]; simp) hu (by rw [hp]; simp) (by rw [hp]; simp) rfl
    · cases h
  | readWait t =>
    simp only [eStepS] at h
    split at h
    · rename_i rest hp hin
      obtain ⟨s', h1, rfl⟩ := snd?_some h
      obtain ⟨th, hth, rfl⟩ := sStep_markAll h1
      exact hb.acked _ (markAll th.hist) hth rfl rfl rfl rfl rfl id (by rw [hp]; simp)
    · cases h
  | readErr t =>
    simp only [eStepS] at h
    split at h
    · rename_i l rest hp hin
      obtain ⟨s', h1, rfl⟩ := snd?_some h
      obtain ⟨th, hth, rfl⟩ := sStep_markAll h1
      exact hb.acked _ (markAll th.hist) hth rfl rfl rfl rfl rfl (by simp) (by rw [hp]; simp)
    · cases h
  | errLost t =>
    simp only [eStepS] at h
    split at h
    · rename_i l rest hh hp hin hth0
      obtain ⟨s', h1, rfl⟩ := snd?_some h
      obtain ⟨th, hth, rfl⟩ := sStep_markAll h1
      exact hb.acked _ (markAll th.hist) hth rfl rfl rfl rfl rfl id (by rw [hp]; simp)
    · cases h
  | global t =>
    simp only [eStepS] at h
    split at h
    · rename_i u cp l hp
      obtain ⟨s', h1, rfl⟩ := snd?_some h
      have hu : u < S.snd.threads.length := by
        rw [hi.len]; exact hi.rlt u (((hi.thr t).pr1 _ _ hp) (u, cp) (by simp)).1
      have h2 := sStep_globalCp hu h1
      obtain ⟨H', l', rfl, hr, huse, hcase⟩ := applyCp_shape h2
      have hth : S.snd.threads[u]? = some (S.snd.thr u) := some_of_lt hu
      have e2 := thr_set (s' := gaveBack S.snd u { S.snd.thr u with hist := H' } l') hth rfl
      have ht : (S.snd.thr t).hist.inUse = true := hi.using (by rw [hp]; simp)
      have hid := ((hi.loc t).send (.inr ⟨_, _, hp⟩)).1
      refine ⟨?_, busyQ t (hi.out t (by rw [hp]; simp)) (by simp [ESys.setP, upd_self, hid]) ?_⟩
      · intro v hv1 hv2
        by_cases hvu : v = u
        · subst hvu
          exact ⟨t, cp, l, by simp [ESys.setP, upd_self]⟩
        · simp only [ESys.setP] at hv1 hv2
          rw [show (gaveBack S.snd u { S.snd.thr u with hist := H' } l').thr = _ from e2] at hv1 hv2
          simp only [upd_ne _ _ hvu] at hv1 hv2
          obtain ⟨w, k, m, hw⟩ := hb.fw v hv1 hv2
          refine ⟨w, k, m, ?_⟩
          have : w ≠ t := by rintro rfl; rw [hp] at hw; cases hw
          simp [ESys.setP, upd_ne _ _ this, hw]
      · simp only [ESys.setP]
        rw [show (gaveBack S.snd u { S.snd.thr u with hist := H' } l').thr = _ from e2, upd_apply]
        split
        · rename_i htu; subst htu
          show H'.inUse = true
          rw [huse]; exact ht
        · exact ht
    · cases h
  | globalGo t =>
    simp only [eStepS] at h
    split at h
    · rename_i u cp l hp
      split at h
      · cases h
      · rename_i hu
        cases h
        refine hb.port t _ S.began (fun h => .inl h) (fun u' k l' h => .inl ?_)
        rw [hp] at h
        cases h
        simpa [ESys.hist, SSys.thr] using hu
    · cases h
  | errDone t =>
    simp only [eStepS] at h
    split at h
    · rename_i hp
      cases h
      exact hb.port t _ S.began (fun h => .inl h) (fun u k l h => by rw [hp] at h; cases h)
    · cases h
  | readDone t =>
    simp only [eStepS] at h
    split at h
    · rename_i rest hp hin
      obtain ⟨s', h1, rfl⟩ := snd?_some h
      obtain ⟨th, hth, rfl⟩ := sStep_markAll h1
      exact hb.acked _ (markAll th.hist) hth rfl rfl rfl rfl rfl id (by rw [hp]; simp)
    · cases h
  | doneEnd t ok =>
    simp only [eStepS] at h
    split at h
    · rename_i hp
      cases h
      exact hb.port t _ S.began (fun h => .inl h) (fun u k l h => by rw [hp] at h; cases h)
    · cases h
  | giveUp t =>
    simp only [eStepS] at h
    split at h
    · rename_i hh hth
      split at h
      · rename_i hc
        cases h
        exact hb.port t _ S.began (fun h => .inl h) (fun u k l h => by rw [h] at hc; simp at hc)
      · cases h
    · cases h
  | exit t =>
    simp only [eStepS] at h
    split at h
    · rename_i ok hp
      obtain ⟨s', h1, rfl⟩ := snd?_some h
      obtain ⟨th, hth, hc, ho, rfl⟩ := sStep_exit h1
      have e1 := thr_of_some hth
      have e2 := thr_set (s' := { S.snd with threads := S.snd.threads.set t { th with hist := { th.hist with inUse := false } } }) hth rfl
      refine ⟨hb.keepFw t (fun _ _ => rfl) ?_ (fun u k l h => .inr rfl), ?_⟩
      · intro u h1 h2
        simp only [e2, upd_apply] at h1 h2
        by_cases hut : u = t
        · simp only [hut, if_true] at h2; cases h2
        · simp only [hut, if_false] at h1 h2
          exact ⟨h1, h2⟩
      · by_cases hg : th.hist.globalCp = true ∧ th.hist.inUse = true
        · obtain ⟨w, k, l, hw⟩ := hb.fw t (by rw [e1]; exact hg.1) (by rw [e1]; exact hg.2)
          have hwt : w ≠ t := by rintro rfl; rw [hp] at hw; cases hw
          refine busyQ (S' := { S with snd := { S.snd with threads := S.snd.threads.set t { th with hist := { th.hist with inUse := false } } } }) w (hi.out w (by rw [hw]; simp)) ((hi.loc w).send (.inr ⟨_, _, hw⟩)).1 ?_
          simp only [e2, upd_ne _ _ hwt]
          exact hi.using (by rw [hw]; simp)
        · refine hb.keepQ rfl rfl (fun _ h => h) ?_
          intro v hv
          have h1 := hv.1
          have h2 := hv.2
          simp only [ESys.ctx, e2, upd_apply] at h1 h2
          by_cases hvt : v = t
          · subst hvt
            simp only [if_true] at h1
            refine ⟨by simpa [ESys.ctx, e1] using h1, ?_⟩
            have : th.hist.inUse = false := by
              cases hx : th.hist.inUse with
              | false => rfl
              | true => exact absurd ⟨h1, hx⟩ hg
            simpa [ESys.ctx, e1] using this
          · simp only [hvt, if_false] at h1 h2
            exact ⟨h1, h2⟩
    · cases h

/-- What the receiver does not touch. -/
structure RFrame (S S' : ESys) : Prop where
  snd : S'.snd = S.snd
  began : S'.began = S.began
  refused : S'.refused = S.refused
  landed : S.landed ⊆ S'.landed
  silent : S'.silent = false → S.silent = false
  dec : S.dec = true → S'.dec = true
  port : ∀ v, (S'.port v).sph = (S.port v).sph ∧ (S'.port v).idle = (S.port v).idle

theorem upd_frame {S : ESys} {t : Nat} {p' : Port} (h : p'.sph = (S.port t).sph ∧ p'.idle = (S.port t).idle) :
    ∀ v, (upd S.port t p' v).sph = (S.port v).sph ∧ (upd S.port t p' v).idle = (S.port v).idle := by
  intro v
  simp only [upd_apply]
  split
  · rename_i hv; subst hv; exact h
  · exact ⟨rfl, rfl⟩

theorem reply_frame (p : Port) (m : DCmd) : (p.reply m).sph = p.sph ∧ (p.reply m).idle = p.idle := by
  unfold Port.reply; split <;> exact ⟨rfl, rfl⟩

theorem rcv?_frame {c : ECfg} {S S' : ESys} {e : REvent} (h : S.rcv? c e = some S') : RFrame S S' := by
  obtain ⟨r', -, rfl⟩ := rcv?_some h
  exact ⟨rfl, rfl, rfl, fun _ h => h, id, id, fun _ => ⟨rfl, rfl⟩⟩

theorem RFrame.trans {S S1 S2 : ESys} (h1 : RFrame S S1) (h2 : RFrame S1 S2) : RFrame S S2 :=
  ⟨h2.snd.trans h1.snd, h2.began.trans h1.began, h2.refused.trans h1.refused, fun _ h => h2.landed (h1.landed h),
    fun h => h1.silent (h2.silent h), fun h => h2.dec (h1.dec h),
    fun v => ⟨(h2.port v).1.trans (h1.port v).1, (h2.port v).2.trans (h1.port v).2⟩⟩

theorem eStepR_frame {c : ECfg} {S S' : ESys} {e : WEv} (h : eStepR c S e = some S') : RFrame S S' := by
  have fr : ∀ {p' : Port} {t : Nat} {L : List Landed}, (p'.sph = (S.port t).sph ∧ p'.idle = (S.port t).idle) →
      RFrame S { S.setP t p' with landed := S.landed ++ L } := by
    intro p' t L hp
    exact ⟨rfl, rfl, rfl, List.subset_append_left _ _, id, id, upd_frame hp⟩
  have fp : ∀ {p' : Port} {t : Nat}, (p'.sph = (S.port t).sph ∧ p'.idle = (S.port t).idle) → RFrame S (S.setP t p') := by
    intro p' t hp
    exact ⟨rfl, rfl, rfl, fun _ h => h, id, id, upd_frame hp⟩
  cases e with
  | accept1 t =>
    simp only [eStepR] at h
    split at h
    · split at h
      · cases h; exact fp ⟨rfl, rfl⟩
      · split at h
        · cases h; exact fp ⟨rfl, rfl⟩
        · cases h
    · cases h
  | accept t ok =>
    simp only [eStepR] at h
    split at h
    · split at h
      · refine RFrame.trans (fp ?_) (rcv?_frame h)
        exact reply_frame { S.port t with hd := some [], more := (S.port t).more - 1, acc := true } _
      · cases h
    · exact (fp (p' := (S.port t).shut (S.port t).last) ⟨rfl, rfl⟩).trans (rcv?_frame h)
  | recv t =>
    simp only [eStepR] at h
    split at h
    · split at h
      · exact (fr (by split <;> exact ⟨rfl, rfl⟩)).trans (rcv?_frame h)
      · cases h
    · cases h
  | recvPart t w fatal =>
    simp only [eStepR] at h
    split at h
    · split at h
      · split at h
        · rename_i S1 hS1
          exact ((fr (by split <;> exact ⟨rfl, rfl⟩)).trans (rcv?_frame hS1)).trans (rcv?_frame h)
        · cases h
      · cases h
    · cases h
  | recvDone t =>
    simp only [eStepR] at h
    split at h
    · rename_i rest _ _
      exact (fp (p' := { S.port t with hd := some rest }) ⟨rfl, rfl⟩).trans (rcv?_frame h)
    · cases h
  | lost t reset fatal =>
    simp only [eStepR] at h
    split at h
    · exact (fp (p' := (S.port t).shut (if reset = true then none else (S.port t).last)) ⟨rfl, rfl⟩).trans (rcv?_frame h)
    · split at h
      · exact (fp (p' := (S.port t).drop (if reset = true then none else (S.port t).last)) ⟨rfl, rfl⟩).trans (rcv?_frame h)
      · cases h
  | verify t =>
    simp only [eStepR] at h
    split at h
    · cases h; exact fp ⟨rfl, rfl⟩
    · cases h
  | markWaiting t => exact rcv?_frame h
  | look t => exact rcv?_frame h
  | resume t => exact rcv?_frame h
  | query t =>
    simp only [eStepR] at h
    split at h
    · rename_i S1 hS1
      cases h
      have := rcv?_frame hS1
      obtain ⟨r', -, rfl⟩ := rcv?_some hS1
      exact ⟨rfl, rfl, rfl, fun _ h => h, id, fun h => by simp [h], fun _ => ⟨rfl, rfl⟩⟩
    · cases h
  | finish t => exact rcv?_frame h
  | sendGlobal t ok =>
    simp only [eStepR] at h
    exact (fp (by split; exact reply_frame _ _; exact ⟨rfl, rfl⟩)).trans (rcv?_frame h)
  | sendWait t ok =>
    simp only [eStepR] at h
    split at h
    · split at h
      · cases h; exact fp (reply_frame _ _)
      · cases h
    · exact (fp (p' := (S.port t).drop (S.port t).last) ⟨rfl, rfl⟩).trans (rcv?_frame h)
  | writeDone t =>
    simp only [eStepR] at h
    split at h
    · cases h; exact fp (reply_frame _ _)
    · cases h
  | doneSent t ok =>
    simp only [eStepR] at h
    exact (fp (by split <;> exact ⟨rfl, rfl⟩)).trans (rcv?_frame h)
  | failed t =>
    simp only [eStepR] at h
    refine RFrame.trans (S1 := { S with cpv := upd S.cpv t (S.port t).cp }) ?_ (rcv?_frame h)
    exact ⟨rfl, rfl, rfl, fun _ h => h, id, id, fun _ => ⟨rfl, rfl⟩⟩
  | silentEnd t =>
    simp only [eStepR] at h
    refine RFrame.trans (S1 := { S.setP t ((S.port t).shut (S.port t).last) with silent := true }) ?_ (rcv?_frame h)
    exact ⟨rfl, rfl, rfl, fun _ h => h, by simp, id, upd_frame ⟨rfl, rfl⟩⟩
  | vanish t =>
    simp only [eStepR] at h
    split at h
    · cases h; exact fp ⟨rfl, rfl⟩
    · cases h
  | vanishMore t =>
    simp only [eStepR] at h
    split at h
    · cases h; exact fp ⟨rfl, rfl⟩
    · cases h

theorem BInv.stepR {c : ECfg} {S S' : ESys} {e : WEv} (hb : BInv c S) (h : eStepR c S e = some S') : BInv c S' := by
  have hf := eStepR_frame h
  refine ⟨?_, ?_⟩
  · intro u h1 h2
    rw [hf.snd] at h1 h2
    obtain ⟨w, k, l, hw⟩ := hb.fw u h1 h2
    exact ⟨w, k, l, (hf.port w).1.trans hw⟩
  · refine hb.keepQ (by rw [hf.snd]) (by rw [hf.snd]) (fun v hv => by rw [← (hf.port v).2]; exact hv) (fun v hv => ?_)
    have h1 := hv.1
    have h2 := hv.2
    simp only [ESys.ctx, hf.snd] at h1 h2
    exact ⟨h1, h2⟩

end Wdt
