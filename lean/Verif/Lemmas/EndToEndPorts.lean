import Verif.Lemmas.EndToEndInv
/-
The invariants of all ports are preserved by every step.
-/
namespace Wdt

/-- What the ports of a transfer share. -/
def ESys.ctx (S : ESys) : Ctx :=
  { cps := S.rcv.cps, cpv := S.cpv, gcp := fun u => (S.snd.thr u).hist.globalCp,
    use := fun u => (S.snd.thr u).hist.inUse, dec := S.dec, began := S.began, refused := S.refused,
    silent := S.silent, landed := S.landed }

/-- Invariant of all ports. -/
structure PInv (c : ECfg) (S : ESys) : Prop where
  len : S.snd.threads.length = c.n
  rr : ∃ es, rRun c.n {} es = some S.rcv
  rlt : ∀ v ∈ S.rcv.cps, v < c.n
  out : ∀ v, (S.port v).sph ≠ .start → v < c.n
  loc : ∀ v, PortInv (S.port v) (S.snd.thr v) (S.rcv.th v).phase (v ∈ S.rcv.cps) (S.cpv v)
  thr : ∀ v, ThrInv c S.ctx v (S.port v) (S.snd.thr v).hist (S.rcv.th v)
  cpg : ∀ v ∈ S.rcv.cps, GoodCp S.landed (S.cpv v)

/-- The sender thread `t` moves. -/
structure SMove (S S' : ESys) (t : Nat) (p' : Port) (th' : SThread) : Prop where
  port : S'.port = upd S.port t p'
  thr : S'.snd.thr = upd S.snd.thr t th'
  len : S'.snd.threads.length = S.snd.threads.length
  rcv : S'.rcv = S.rcv
  cpv : S'.cpv = S.cpv
  landed : S'.landed = S.landed
  dec : S'.dec = S.dec
  silent : S'.silent = S.silent
  began : S.began = true → S'.began = true
  refused : S'.refused = false → S.refused = false
  gcp : (S.snd.thr t).hist.globalCp = true → th'.hist.globalCp = true
  use : (S.snd.thr t).hist.inUse = false → th'.hist.inUse = false

theorem SMove.le {S S' : ESys} {t : Nat} {p' : Port} {th' : SThread} (m : SMove S S' t p' th') : S.ctx.Le S'.ctx := by
  refine ⟨?_, ?_, ?_, ?_, ?_, m.began, m.refused, ?_, ?_⟩
  · simp only [ESys.ctx, m.rcv]; exact List.prefix_refl _
  · simp [ESys.ctx, m.cpv]
  · intro u hu
    simp only [ESys.ctx, m.thr, upd_apply] at hu ⊢
    split
    · rename_i h; subst h; exact m.gcp hu
    · exact hu
  · intro u hu
    simp only [ESys.ctx, m.thr, upd_apply] at hu ⊢
    split
    · rename_i h; subst h; exact m.use hu
    · exact hu
  · simp [ESys.ctx, m.dec]
  · simp [ESys.ctx, m.silent]
  · simp [ESys.ctx, m.landed]

theorem PInv.bounds {c : ECfg} {S : ESys} (hi : PInv c S) (v : Nat) :
    (S.rcv.th v).cpIdx ≤ (S.rcv.th v).pending ∧ (S.rcv.th v).pending ≤ S.rcv.cps.length := by
  obtain ⟨es, hes⟩ := hi.rr
  have := (RInv.run hes).thr v
  exact ⟨this.le1, this.le2⟩

theorem PInv.smove {c : ECfg} {S S' : ESys} {t : Nat} {p' : Port} {th' : SThread} (hi : PInv c S)
    (m : SMove S S' t p' th') (ho : p'.sph ≠ .start → t < c.n)
    (hl : PortInv p' th' (S.rcv.th t).phase (t ∈ S.rcv.cps) (S.cpv t))
    (ht : ThrInv c S'.ctx t (S.port t) (S.snd.thr t).hist (S.rcv.th t) → ThrInv c S'.ctx t p' th'.hist (S.rcv.th t)) :
    PInv c S' where
  len := m.len.trans hi.len
  rr := by rw [m.rcv]; exact hi.rr
  rlt := by rw [m.rcv]; exact hi.rlt
  out v hv := by
    rw [m.port, upd_apply] at hv
    split at hv
    · rename_i h; subst h; exact ho hv
    · exact hi.out v hv
  loc v := by
    rw [m.port, m.thr, m.rcv, m.cpv, upd_apply, upd_apply]
    split
    · rename_i h; subst h; exact hl
    · exact hi.loc v
  thr v := by
    have hb := hi.bounds v
    have := (hi.thr v).mono m.le hb.1 hb.2
    rw [m.port, m.thr, m.rcv, upd_apply, upd_apply]
    split
    · rename_i h; subst h; exact ht this
    · exact this
  cpg := by rw [m.rcv, m.cpv, m.landed]; exact hi.cpg

/-- Only the port of a sender thread changes. -/
theorem SMove.ofPort (S : ESys) (t : Nat) (p' : Port) (b : Bool) :
    SMove S { S.setP t p' with began := S.began || b } t p' (S.snd.thr t) where
  port := rfl
  thr := by
    funext v
    simp only [upd_apply, ESys.setP]
    split
    · rename_i h; subst h; rfl
    · rfl
  len := rfl
  rcv := rfl
  cpv := rfl
  landed := rfl
  dec := rfl
  silent := rfl
  began h := by simp [h]
  refused := id
  gcp := id
  use := id

theorem upd_same {α : Type} (f : Nat → α) (t : Nat) : upd f t (f t) = f := by
  funext v; simp only [upd_apply]; split
  · rename_i h; subst h; rfl
  · rfl

/-- A sender thread changes its history, its port and what it holds. -/
theorem SMove.ofThread {S : ESys} {t : Nat} {p' : Port} {th th' : SThread} {s' : SSys} {b r : Bool}
    (hth : S.snd.threads[t]? = some th) (hs : s'.threads = S.snd.threads.set t th')
    (hg : th.hist.globalCp = true → th'.hist.globalCp = true) (hu : th.hist.inUse = false → th'.hist.inUse = false) :
    SMove S { S.setP t p' with snd := s', began := S.began || b, refused := S.refused || r } t p' th' where
  port := rfl
  thr := thr_set hth hs
  len := by simp [hs]
  rcv := rfl
  cpv := rfl
  landed := rfl
  dec := rfl
  silent := rfl
  began h := by simp [h]
  refused h := by simp at h; exact h.1
  gcp := by rw [thr_of_some hth]; exact hg
  use := by rw [thr_of_some hth]; exact hu

theorem snd?_some {S S' : ESys} {e : SEvent} (h : S.snd? e = some S') :
    ∃ s', sStep S.snd e = .ok s' ∧ S' = { S with snd := s' } := by
  unfold ESys.snd? at h
  split at h
  · rename_i s hs
    cases h
    exact ⟨s, hs, rfl⟩
  · cases h

theorem rcv?_some {c : ECfg} {S S' : ESys} {e : REvent} (h : S.rcv? c e = some S') :
    ∃ r', rStep c.n S.rcv e = some r' ∧ S' = { S with rcv := r' } := by
  unfold ESys.rcv? at h
  split at h
  · rename_i s hs
    cases h
    exact ⟨s, hs, rfl⟩
  · cases h

/-- Discovery changes only the queue. -/
theorem PInv.queue {c : ECfg} {S : ESys} (hi : PInv c S) {s' : SSys} (hs : s'.threads = S.snd.threads) :
    PInv c { S with snd := s' } where
  len := by simp only [hs]; exact hi.len
  rr := hi.rr
  rlt := hi.rlt
  out := hi.out
  loc v := by simp only [thr_same hs]; exact hi.loc v
  thr v := by
    have := hi.thr v
    simp only [ESys.ctx, thr_same hs] at this ⊢; exact this
  cpg := hi.cpg

theorem lt_of_some {s : SSys} {t : Nat} {th : SThread} (h : s.threads[t]? = some th) : t < s.threads.length := by
  rw [List.getElem?_eq_some_iff] at h; exact h.1

/-- A thread changes its history or what it holds, its port stays as it is. -/
theorem PInv.thread {c : ECfg} {S : ESys} (hi : PInv c S) {t : Nat} {th th' : SThread} {s' : SSys} (b r : Bool)
    (hth : S.snd.threads[t]? = some th) (hs : s'.threads = S.snd.threads.set t th') (p' : Port)
    (hg : th.hist.globalCp = true → th'.hist.globalCp = true) (hu : th.hist.inUse = false → th'.hist.inUse = false)
    (hl : PortInv (S.port t) th (S.rcv.th t).phase (t ∈ S.rcv.cps) (S.cpv t) →
      PortInv p' th' (S.rcv.th t).phase (t ∈ S.rcv.cps) (S.cpv t))
    (ht : ∀ G : Ctx, G.landed = S.landed → G.dec = S.dec → (S.began || b) = G.began → G.cps = S.rcv.cps →
      ThrInv c G t (S.port t) th.hist (S.rcv.th t) → ThrInv c G t p' th'.hist (S.rcv.th t)) :
    PInv c { S.setP t p' with snd := s', began := S.began || b, refused := S.refused || r } := by
  refine hi.smove (SMove.ofThread hth hs hg hu) (fun _ => by rw [← hi.len]; exact lt_of_some hth) ?_ ?_
  · have := hi.loc t
    rw [thr_of_some hth] at this
    exact hl this
  · rw [thr_of_some hth]
    exact ht _ rfl rfl rfl rfl

/-- Only the port of a sender thread changes. -/
theorem PInv.portS {c : ECfg} {S : ESys} (hi : PInv c S) {t : Nat} (b : Bool) (p' : Port) (ho : p'.sph ≠ .start → t < c.n)
    (hl : PortInv (S.port t) (S.snd.thr t) (S.rcv.th t).phase (t ∈ S.rcv.cps) (S.cpv t) →
      PortInv p' (S.snd.thr t) (S.rcv.th t).phase (t ∈ S.rcv.cps) (S.cpv t))
    (ht : ∀ G : Ctx, G.gcp = S.ctx.gcp → G.refused = S.refused → (S.began || b) = G.began → G.use = S.ctx.use →
      ThrInv c G t (S.port t) (S.snd.thr t).hist (S.rcv.th t) → ThrInv c G t p' (S.snd.thr t).hist (S.rcv.th t)) :
    PInv c { S.setP t p' with began := S.began || b } :=
  hi.smove (SMove.ofPort S t p' b) ho (hl (hi.loc t)) (ht _ rfl rfl rfl rfl)

theorem openedSource_wire (x : Source) : (openedSource x).wire = x.wire ∧ (openedSource x).key = x.key ∧
    (openedSource x).offset = x.offset ∧ (openedSource x).seqId = x.seqId := by
  unfold openedSource
  split <;> exact ⟨rfl, rfl, rfl, rfl⟩

set_option maxHeartbeats 1000000 in
theorem PInv.stepS {c : ECfg} {S S' : ESys} {e : SEv} (hi : PInv c S) (h : eStepS c S e = some S') : PInv c S' := by
  cases e with
  | discover f =>
    obtain ⟨s', h1, rfl⟩ := snd?_some h
    exact hi.queue (sStep_discover h1).2.1
  | finishDiscovery =>
    obtain ⟨s', h1, rfl⟩ := snd?_some h
    exact hi.queue (sStep_finishDiscovery h1).2.1
  | setPrev infos =>
    simp only [eStepS] at h
    split at h
    · cases h
    · obtain ⟨s', h1, rfl⟩ := snd?_some h
      exact hi.queue (sStep_setPrev h1).1
  | connect t =>
    simp only [eStepS] at h
    split at h
    · rename_i hc
      split at h
      · rename_i hp
        cases h
        have := hi.portS (t := t) false { S.port t with sph := .sending, hd := some [], att := true } (fun _ => hc.1)
          (fun hl => hl.connect1 hp hc.2.1 hc.2.2) (fun G _ _ _ _ ht => ht.connect1 (hi.loc t) hp)
        simpa [ESys.setP] using this
      · rename_i hp
        cases h
        have := hi.portS (t := t) false { S.port t with sph := .awaitCp, more := (S.port t).more + 1, att := true }
          (fun _ => hc.1) (fun hl => hl.connect2 hp hc.2.1) (fun G _ _ _ _ ht => ht.connect2 hp)
        simpa [ESys.setP] using this
      · cases h
    · cases h
  | pop t x =>
    simp only [eStepS] at h
    split at h
    · rename_i hp
      obtain ⟨s', h1, rfl⟩ := snd?_some h
      obtain ⟨th, hth, ho, hcu, hin, hx, rfl⟩ := sStep_pop h1
      have := hi.thread true false (th' := { th with opening := some x }) (s' := { S.snd with q := { S.snd.q with queue := S.snd.q.queue.erase x }, threads := S.snd.threads.set t { th with opening := some x } }) hth rfl (S.port t) id id (fun hl => hl.pop x hp) (fun _ _ _ _ _ ht => ht)
      simpa [ESys.setP, upd_same] using this
    · cases h
  | openOk t =>
    obtain ⟨s', h1, rfl⟩ := snd?_some h
    obtain ⟨th, x, hth, ho, hcu, rfl⟩ := sStep_openOk h1
    have := hi.thread false false (th' := { th with opening := none, cur := some (openedSource x) }) (s' := { S.snd with q := { S.snd.q with deq := S.snd.q.deq + 1 }, threads := S.snd.threads.set t { th with opening := none, cur := some (openedSource x) } }) hth rfl (S.port t) id id (fun hl => hl.openOk x ho hcu _) (fun _ _ _ _ _ ht => ht)
    simpa [ESys.setP, upd_same] using this
  | openFail t =>
    obtain ⟨s', h1, rfl⟩ := snd?_some h
    obtain ⟨th, x, hth, ho, hcu, rfl⟩ := sStep_openFail h1
    have := hi.thread false false (th' := { th with opening := none }) (s' := { S.snd with q := { S.snd.q with failed := S.snd.q.failed ++ [openFailedSource x] }, threads := S.snd.threads.set t { th with opening := none } }) hth rfl (S.port t) id id (fun hl => hl.openFail x ho hcu) (fun _ _ _ _ _ ht => ht)
    simpa [ESys.setP, upd_same] using this
  | write t n =>
    simp only [eStepS] at h
    split at h
    · rename_i hh x hth
      split at h
      · rename_i hc
        cases h
        have hcur : (S.snd.thr t).cur = some x := by rw [thr_of_some hth]
        have := hi.portS (t := t) false { (S.port t).put (.block x.wire n) with wrote := some n }
          (fun _ => by rw [← hi.len]; exact lt_of_some hth)
          (fun hl => hl.write x n hc.1 hcur hc.2.1)
          (fun G _ _ _ _ ht => (ht.put (hi.loc t) hc.1 _).wrote _)
        simpa [ESys.setP] using this
      · cases h
    · cases h
  | sent t o =>
    simp only [eStepS] at h
    split at h
    · rename_i hh x hth
      have key : ∀ s' p', sStep S.snd (.sent t o) = .ok s' →
          (hh.globalCp = true → p' = (S.port t).leave (.ended false)) →
          (hh.globalCp = false → (p' = { S.port t with wrote := none } ∧ (S.port t).wrote.isSome = true) ∨ p' = (S.port t).leave .lost) →
          PInv c { S.setP t p' with snd := s' } := by
        intro s' p' h1 hp1 hp2
        obtain ⟨H', l, rfl, hu, hg, hcase⟩ := sStep_sent (th := ⟨hh, none, some x⟩) hth rfl rfl h1
        simp only at hu hg hcase
        have key : (PortInv (S.port t) ⟨hh, none, some x⟩ (S.rcv.th t).phase (t ∈ S.rcv.cps) (S.cpv t) →
              PortInv p' ⟨H', none, none⟩ (S.rcv.th t).phase (t ∈ S.rcv.cps) (S.cpv t)) →
            (∀ G, ThrInv c G t (S.port t) H' (S.rcv.th t) → ThrInv c G t p' H' (S.rcv.th t)) →
            PInv c { S.setP t p' with snd := gaveBack S.snd t ⟨H', none, none⟩ l } := by
          intro hl ht
          have := hi.thread false false (th' := ⟨H', none, none⟩) (s' := gaveBack S.snd t ⟨H', none, none⟩ l)
            hth rfl p' (fun e => by rw [hg]; exact e) (fun e => by rw [hu]; exact e) hl
            (fun G _ _ _ _ h5 => ht G (h5.hist H' (fun k hk => by
                rcases hcase with ⟨_, _, hlc, _⟩ | ⟨_, _, hlc, _⟩
                · exact h5.s5 k (by rw [← hlc]; exact hk)
                · rw [hlc] at hk; cases hk) (fun hb => by rw [hg]; exact (h5.bg hb).2.1)))
          simpa [ESys.setP] using this
        rcases hcase with ⟨hg0, ⟨x', hk1, hk2, hk3, hk4⟩, hlc, rfl⟩ | ⟨hg1, hk1, hlc, -⟩
        · rw [hg0] at hg
          rcases hp2 hg0 with ⟨rfl, hw⟩ | rfl
          · exact key (fun hl => hl.sentOk x x' H' rfl rfl hw hk3 hk4 hu hg0 hg) (fun G ht => ht.wrote _)
          · exact key (fun hl => hl.sentFail x x' H' rfl rfl hk3 hk4 hu hg0 hg) (fun G ht => ht.left _ (.inl rfl))
        · rw [hg1] at hg
          obtain rfl := hp1 hg1
          exact key (fun hl => hl.sentGlobal x H' rfl rfl hk1 hg1 hg) (fun G ht => ht.left _ (.inr (.inl rfl)))
      cases o with
      | ok hb =>
        simp only at h
        split at h
        · rename_i hfine
          obtain ⟨s', h1, rfl⟩ := snd?_some h
          refine key s' _ h1 (fun hg => by simp [hg]) (fun hg => .inl ⟨by simp [hg], ?_⟩)
          have : (S.port t).wrote = some x.size := by simpa using hfine
          simp [this]
        · cases h
      | fail d =>
        simp only [if_true] at h
        obtain ⟨s', h1, rfl⟩ := snd?_some h
        exact key s' _ h1 (fun hg => by simp [hg]) (fun hg => .inr (by simp [hg]))
    · cases h
  | sendDone t =>
    simp only [eStepS] at h
    split at h
    · rename_i hh hth
      split at h
      · rename_i hc
        cases h
        have e1 : (S.snd.thr t).cur = none := by rw [thr_of_some hth]
        have e2 : (S.snd.thr t).opening = none := by rw [thr_of_some hth]
        have := hi.portS (t := t) true { (S.port t).put .done with sph := .awaitCmd, idle := true }
          (fun _ => by rw [← hi.len]; exact lt_of_some hth)
          (fun hl => hl.sendDone hc.1 e1 e2)
          (fun G _ _ hb _ ht => by
            have h1 := ht.put (hi.loc t) hc.1 .done
            have hb' : G.began = true := by simpa using hb.symm
            exact { h1 with
              pr1 := fun l w hx => by simp at hx
              prw := fun _ u k l hx => by simp at hx
              dn := fun hx => h1.dn (by
                have hs : ((S.port t).put .done).sph = .sending := by unfold Port.put; split <;> exact hc.1
                rcases hx with hx | hx | hx | hx
                · exact .inl hx
                · cases hx
                · cases hx
                · exact .inr (.inr (.inr hx)))
              e2 := fun hr hp i u hi' hlt => by
                rcases h1.e2 hr hp i u hi' hlt with hx | hx
                · exact .inl hx
                · refine .inr ⟨hx.1, fun ha hm => ?_⟩
                  rcases hx.2 ha hm with hx | ⟨l, w, hx, _⟩
                  · exact .inl hx
                  · have hs : ((S.port t).put .done).sph = .sending := by unfold Port.put; split <;> exact hc.1
                    rw [hs] at hx; cases hx
              bg := fun hx => by rw [hb'] at hx; cases hx })
        simpa [ESys.setP] using this
      · cases h
    · cases h
  | lose t =>
    simp only [eStepS] at h
    split at h
    · rename_i hh hth
      split at h
      · rename_i hc
        cases h
        have e1 : (S.snd.thr t).cur = none := by rw [thr_of_some hth]
        have e2 : (S.snd.thr t).opening = none := by rw [thr_of_some hth]
        have := hi.portS (t := t) false ((S.port t).leave .lost)
          (fun _ => by rw [← hi.len]; exact lt_of_some hth)
          (fun hl => hl.left .lost e2 e1 (fun ⟨ok, hx⟩ => by rw [hx] at hc; simp at hc) (.inl rfl))
          (fun G _ _ _ _ ht => ht.left _ (.inl rfl))
        simpa [ESys.setP] using this
      · cases h
    · cases h
  | readCp t =>
    simp only [eStepS] at h
    split at h
    · rename_i cp rest hp hin
      obtain ⟨s', h1, rfl⟩ := snd?_some h
      obtain ⟨th, hth, hcu, ho, hus, happ⟩ := sStep_localCp h1
      have hthr : (S.setP t (S.port t)).snd.thr t = th := thr_of_some hth
      have hhist : S.hist t = th.hist := by
        show (S.snd.threads.getD t {}).hist = _
        have := thr_of_some hth
        exact congrArg SThread.hist this
      obtain ⟨H', l, rfl, hback, hu, hcase⟩ := applyCp_shape happ
      rw [hhist]
      rcases hcase with ⟨href, rfl, rfl⟩ | ⟨href, hnn, hle, hh, hlc, hg⟩
      · rw [if_pos href]
        have := hi.thread false false (th' := th) (s' := gaveBack S.snd t th [])
          hth rfl ((S.port t).leave (.ended false)) id id
          (fun hl => hl.left _ ho hcu (fun _ => ⟨false, rfl⟩) (.inr ⟨false, rfl⟩))
          (fun G _ _ _ _ ht => ht.left _ (.inr (.inl rfl)))
        simpa [gaveBack, ESys.setP] using this
      · rw [if_neg (by simp [href])]
        rw [Bool.or_false] at hg
        have := hi.thread false false (th' := { th with hist := H' }) (s' := gaveBack S.snd t { th with hist := H' } l)
          hth rfl { S.port t with sph := .sending, inbox := rest, idle := false } (fun e => by rw [hg]; exact e) (fun e => by rw [hu]; exact e)
          (fun hl => hl.readCp cp rest H' hp hin hh hu hg)
          (fun G hL _ _ _ ht => ((ht.readCp (hi.loc t) cp rest hp hin)).hist H' (fun k hk => by
              rw [hlc] at hk; cases hk
              exact ht.s3 _ (by rw [hin]; simp))
            (fun hb => by rw [hg]; exact (ht.bg hb).2.1))
        simpa [gaveBack, ESys.setP] using this
    · cases h
  | readWait t =>
    simp only [eStepS] at h
    split at h
    · rename_i rest hp hin
      obtain ⟨s', h1, rfl⟩ := snd?_some h
      obtain ⟨th, hth, rfl⟩ := sStep_markAll h1
      have := hi.thread false false (th' := { th with hist := markAll th.hist }) (s' := { S.snd with threads := S.snd.threads.set t { th with hist := markAll th.hist } }) hth rfl
        { S.port t with inbox := rest } id id
        (fun hl => (hl.readWait rest hp hin).acked _ rfl rfl rfl)
        (fun G _ _ _ _ ht => (ht.readWait rest hp hin).hist _ ht.s5 (fun hb => (ht.bg hb).2.1))
      simpa [ESys.setP] using this
    · cases h
  | readErr t =>
    simp only [eStepS] at h
    split at h
    · rename_i l rest hp hin
      obtain ⟨s', h1, rfl⟩ := snd?_some h
      obtain ⟨th, hth, rfl⟩ := sStep_markAll h1
      have := hi.thread false false (th' := { th with hist := markAll th.hist }) (s' := { S.snd with threads := S.snd.threads.set t { th with hist := markAll th.hist } }) hth rfl
        { S.port t with sph := .processing l false, inbox := rest, idle := false } id id
        (fun hl => (hl.readErr l rest hp hin).acked _ rfl rfl rfl)
        (fun G _ _ _ _ ht => (ht.readErr (hi.loc t) l rest hp hin).hist _ ht.s5 (fun hb => (ht.bg hb).2.1))
      simpa [ESys.setP] using this
    · cases h
  | errLost t =>
    simp only [eStepS] at h
    split at h
    · rename_i l rest hh hp hin hth0
      obtain ⟨s', h1, rfl⟩ := snd?_some h
      obtain ⟨th, hth, rfl⟩ := sStep_markAll h1
      cases hth0.symm.trans hth
      have := hi.thread false false (th' := { (⟨hh, none, none⟩ : SThread) with hist := markAll hh }) (s' := { S.snd with threads := S.snd.threads.set t { (⟨hh, none, none⟩ : SThread) with hist := markAll hh } }) hth rfl
        ((S.port t).leave .lost) id id
        (fun hl => (hl.left .lost rfl rfl (fun ⟨ok, hx⟩ => by rw [hx] at hp; simp at hp) (.inl rfl)).acked _ rfl rfl rfl)
        (fun G _ _ _ _ ht => (ht.left _ (.inl rfl)).hist _ ht.s5 (fun hb => (ht.bg hb).2.1))
      simpa [ESys.setP] using this
    · cases h
  | global t =>
    simp only [eStepS] at h
    split at h
    · rename_i u cp l hp
      obtain ⟨s', h1, rfl⟩ := snd?_some h
      have hk := (hi.thr t).pr1 _ _ hp (u, cp) (by simp)
      have hun : u < S.snd.threads.length := by rw [hi.len]; exact hi.rlt u hk.1
      have hcp : cp = S.cpv u := hk.2
      have hbeg : S.began = true := by
        cases hb : S.began with
        | true => rfl
        | false => exact absurd hp (((hi.thr t).bg hb).2.2 _ _)
      have happ := sStep_globalCp (s := S.snd) hun h1
      obtain ⟨H', lb, hs', hback, hu, hcase⟩ := applyCp_shape happ
      have hS1 : PInv c { S.setP u (S.port u) with snd := s', began := S.began || false, refused := S.refused || refusedCp (S.hist u) cp true } := by
        refine hi.thread false _ (th := S.snd.thr u) (th' := { S.snd.thr u with hist := H' }) (some_of_lt hun)
          (by rw [hs']; rfl) (S.port u) ?_ (fun e => by rw [hu]; exact e) ?_ ?_
        · intro hg
          rcases hcase with ⟨_, rfl, _⟩ | ⟨_, _, _, _, _, hg'⟩
          · exact hg
          · simp [hg']
        · intro hl
          rcases hcase with ⟨_, rfl, _⟩ | ⟨_, _, hle, hh, _, hg'⟩
          · exact hl
          · rw [hcp] at hle hh
            exact hl.global hk.1 H' hu hle hh
        · intro G hL _ hbG hcG ht
          rcases hcase with ⟨_, rfl, _⟩ | ⟨_, _, hle, hh, hlc, hg'⟩
          · exact ht
          · refine ht.hist H' (fun k hk2 => ?_) (fun hb => ?_)
            · rw [hlc] at hk2; cases hk2
              rw [hL, hcp]
              exact hi.cpg u hk.1
            · simp only [hbeg, Bool.true_or] at hbG
              rw [← hbG] at hb; cases hb
      have hS2 := hS1.portS (t := t) false { S.port t with sph := .processing ((u, cp) :: l) true }
        (fun _ => hi.out t (by rw [hp]; simp))
        (fun hl => by
          simp only [ESys.setP, upd_same] at hl
          exact hl.process _ _ _ _ hp)
        (fun G hG hR _ _ ht => by
          simp only [ESys.setP, upd_same] at ht
          refine ht.globalWait u cp l hp (fun hr => ?_)
          rw [hG]
          rw [hR] at hr
          simp only [Bool.or_eq_false_iff] at hr
          show (s'.thr u).hist.globalCp = true
          have e : s'.thr u = { S.snd.thr u with hist := H' } := by
            rw [thr_set (some_of_lt hun) (th' := { S.snd.thr u with hist := H' }) (by rw [hs']; rfl), upd_self]
          rw [e]
          have hh2 : S.hist u = (S.snd.thr u).hist := rfl
          rcases hcase with ⟨hx, _⟩ | ⟨_, _, _, _, _, hg'⟩
          · rw [hh2, hx] at hr; cases hr.2
          · simp [hg'])
      simpa [ESys.setP, upd_same] using hS2
    · cases h
  | globalGo t =>
    simp only [eStepS] at h
    split at h
    · rename_i u cp l hp
      split at h
      · cases h
      · rename_i hus
        cases h
        have hu : (S.snd.thr u).hist.inUse = false := by simpa [ESys.hist, SSys.thr] using hus
        have := hi.portS (t := t) false { S.port t with sph := .processing l false }
          (fun _ => hi.out t (by rw [hp]; simp))
          (fun hl => hl.process _ _ _ _ hp)
          (fun G _ _ _ hG ht => ht.globalGo u cp l hp (by rw [hG]; exact hu))
        simpa [ESys.setP] using this
    · cases h
  | errDone t =>
    simp only [eStepS] at h
    split at h
    · rename_i hp
      cases h
      have := hi.portS (t := t) false { S.port t with sph := .sending }
        (fun _ => hi.out t (by rw [hp]; simp))
        (fun hl => hl.errDone _ _ hp)
        (fun G _ _ _ hG ht => ht.errDone (hi.loc t) _ hp)
      simpa [ESys.setP] using this
    · cases h
  | readDone t =>
    simp only [eStepS] at h
    split at h
    · rename_i rest hp hin
      obtain ⟨s', h1, rfl⟩ := snd?_some h
      obtain ⟨th, hth, rfl⟩ := sStep_markAll h1
      have := hi.thread false false (th' := { th with hist := markAll th.hist }) (s' := { S.snd with threads := S.snd.threads.set t { th with hist := markAll th.hist } }) hth rfl
        { S.port t with sph := .gotDone, inbox := rest } id id
        (fun hl => (hl.readDone rest hp hin).acked _ rfl rfl rfl)
        (fun G _ _ _ _ ht => (ht.readDone (hi.loc t) rest hp hin).hist _ ht.s5 (fun hb => (ht.bg hb).2.1))
      simpa [ESys.setP] using this
    · cases h
  | doneEnd t ok =>
    simp only [eStepS] at h
    split at h
    · rename_i hp
      cases h
      have hb := (hi.loc t).busy
      have e1 : (S.snd.thr t).cur = none := by
        cases hx : (S.snd.thr t).cur with
        | none => rfl
        | some y => have := hb (.inr (by simp [hx])); rw [hp] at this; cases this
      have e2 : (S.snd.thr t).opening = none := by
        cases hx : (S.snd.thr t).opening with
        | none => rfl
        | some y => have := hb (.inl (by simp [hx])); rw [hp] at this; cases this
      have := hi.portS (t := t) false ((S.port t).leave (if ok then .ended true else .lost))
        (fun _ => hi.out t (by rw [hp]; simp))
        (fun hl => hl.left _ e2 e1 (fun ⟨_, hx⟩ => by rw [hp] at hx; cases hx) (by cases ok <;> simp))
        (fun G _ hd _ hG ht => ht.left _ (by
          cases ok
          · simp
          · exact .inr (.inr ⟨rfl, ht.dn (.inr (.inl hp))⟩)))
      simpa [ESys.setP] using this
    · cases h
  | giveUp t =>
    simp only [eStepS] at h
    split at h
    · rename_i hh hth
      split at h
      · rename_i hc
        cases h
        have e1 : (S.snd.thr t).cur = none := by rw [thr_of_some hth]
        have e2 : (S.snd.thr t).opening = none := by rw [thr_of_some hth]
        have := hi.portS (t := t) false ((S.port t).leave (.ended false))
          (fun _ => by rw [← hi.len]; exact lt_of_some hth)
          (fun hl => hl.left _ e2 e1 (fun _ => ⟨_, rfl⟩) (.inr ⟨_, rfl⟩))
          (fun G _ _ _ _ ht => ht.left _ (.inr (.inl rfl)))
        simpa [ESys.setP] using this
      · cases h
    · cases h
  | exit t =>
    simp only [eStepS] at h
    split at h
    · rename_i ok hp
      obtain ⟨s', h1, rfl⟩ := snd?_some h
      obtain ⟨th, hth, hcu, ho, rfl⟩ := sStep_exit h1
      have := hi.thread false false (th' := { th with hist := { th.hist with inUse := false } }) (s' := { S.snd with threads := S.snd.threads.set t { th with hist := { th.hist with inUse := false } } }) hth rfl
        (S.port t) id (fun _ => rfl)
        (fun hl => hl.exit ok hp _ rfl rfl)
        (fun G _ _ _ _ ht => ht.hist _ ht.s5 (fun hb => (ht.bg hb).2.1))
      simpa [ESys.setP, upd_same] using this
    · cases h

/-- The receiver thread `t` moves and adds no checkpoint. -/
structure RMove (S S' : ESys) (t : Nat) (p' : Port) (r' : RThr) : Prop where
  port : S'.port = upd S.port t p'
  th : S'.rcv.th = upd S.rcv.th t r'
  cps : S'.rcv.cps = S.rcv.cps
  snd : S'.snd = S.snd
  cpv : S'.cpv = S.cpv
  landed : S.landed ⊆ S'.landed
  dec : S.dec = true → S'.dec = true
  silent : S'.silent = false → S.silent = false
  began : S'.began = S.began
  refused : S'.refused = S.refused

theorem RMove.le {S S' : ESys} {t : Nat} {p' : Port} {r' : RThr} (m : RMove S S' t p' r') : S.ctx.Le S'.ctx := by
  refine ⟨?_, ?_, ?_, ?_, m.dec, ?_, ?_, m.silent, m.landed⟩
  · simp only [ESys.ctx, m.cps]; exact List.prefix_refl _
  · simp [ESys.ctx, m.cpv]
  · simp [ESys.ctx, m.snd]
  · simp [ESys.ctx, m.snd]
  · simp [ESys.ctx, m.began]
  · simp [ESys.ctx, m.refused]

theorem PInv.rmove {c : ECfg} {S S' : ESys} {t : Nat} {p' : Port} {r' : RThr} (hi : PInv c S)
    (m : RMove S S' t p' r') (hrr : ∃ es, rRun c.n {} es = some S'.rcv) (ho : p'.sph = (S.port t).sph)
    (hl : PortInv (S.port t) (S.snd.thr t) (S.rcv.th t).phase (t ∈ S.rcv.cps) (S.cpv t) →
      PortInv p' (S.snd.thr t) r'.phase (t ∈ S.rcv.cps) (S.cpv t))
    (ht : ThrInv c S'.ctx t (S.port t) (S.snd.thr t).hist (S.rcv.th t) → ThrInv c S'.ctx t p' (S.snd.thr t).hist r') :
    PInv c S' where
  len := by rw [m.snd]; exact hi.len
  rr := hrr
  rlt := by rw [m.cps]; exact hi.rlt
  out v hv := by
    rw [m.port, upd_apply] at hv
    split at hv
    · rename_i h; subst h; rw [ho] at hv; exact hi.out v hv
    · exact hi.out v hv
  loc v := by
    rw [m.port, m.snd, m.th, m.cps, m.cpv, upd_apply, upd_apply]
    split
    · rename_i h; subst h; exact hl (hi.loc v)
    · exact hi.loc v
  thr v := by
    have hb := hi.bounds v
    have := (hi.thr v).mono m.le hb.1 hb.2
    rw [m.port, m.snd, m.th, upd_apply, upd_apply]
    split
    · rename_i h; subst h; exact ht this
    · exact this
  cpg v hv := by rw [m.cps] at hv; rw [m.cpv]; exact (hi.cpg v hv).mono m.landed

theorem rr_snoc {n : Nat} {s s' : RFin} {e : REvent} (h : ∃ es, rRun n {} es = some s) (hs : rStep n s e = some s') :
    ∃ es, rRun n {} es = some s' := by
  obtain ⟨es, h⟩ := h
  exact ⟨es ++ [e], by rw [rRun_snoc, h]; exact hs⟩

/-- A port changes at the receiver, the thread stays where it is. -/
theorem PInv.portR {c : ECfg} {S : ESys} (hi : PInv c S) {t : Nat} (p' : Port) (ho : p'.sph = (S.port t).sph)
    (hl : PortInv (S.port t) (S.snd.thr t) (S.rcv.th t).phase (t ∈ S.rcv.cps) (S.cpv t) →
      PortInv p' (S.snd.thr t) (S.rcv.th t).phase (t ∈ S.rcv.cps) (S.cpv t))
    (ht : ThrInv c S.ctx t (S.port t) (S.snd.thr t).hist (S.rcv.th t) →
      ThrInv c S.ctx t p' (S.snd.thr t).hist (S.rcv.th t)) : PInv c (S.setP t p') := by
  refine hi.rmove (t := t) (p' := p') (r' := S.rcv.th t) ⟨rfl, ?_, rfl, rfl, rfl, fun _ h => h, id, id, rfl, rfl⟩ hi.rr ho hl ht
  simp only [ESys.setP, upd_same]

/-- A receiver thread moves. -/
theorem PInv.thrR {c : ECfg} {S : ESys} (hi : PInv c S) {t : Nat} (p' : Port) (ho : p'.sph = (S.port t).sph)
    {e : REvent} {s' : RFin} (hs : rStep c.n S.rcv e = some s') (r' : RThr) (hth : s'.th = upd S.rcv.th t r')
    (hcps : s'.cps = S.rcv.cps) (L : List Landed) (d si : Bool)
    (hl : PortInv (S.port t) (S.snd.thr t) (S.rcv.th t).phase (t ∈ S.rcv.cps) (S.cpv t) →
      PortInv p' (S.snd.thr t) r'.phase (t ∈ S.rcv.cps) (S.cpv t))
    (ht : ∀ G : Ctx, (S.dec || d) = G.dec → G.landed = S.landed ++ L → G.silent = (S.silent || si) → G.cps = S.rcv.cps → G.cpv = S.cpv →
      ThrInv c G t (S.port t) (S.snd.thr t).hist (S.rcv.th t) →
      ThrInv c G t p' (S.snd.thr t).hist r') :
    PInv c { S.setP t p' with rcv := s', landed := S.landed ++ L, dec := S.dec || d, silent := S.silent || si } := by
  refine hi.rmove (t := t) (p' := p') (r' := r') ⟨rfl, hth, hcps, rfl, rfl, ?_, ?_, ?_, rfl, rfl⟩ (rr_snoc hi.rr hs) ho hl
    (ht _ rfl rfl rfl hcps rfl)
  · exact fun _ h => List.mem_append_left _ h
  · intro h; simp [h]
  · intro h; simp at h; exact h.1

section rs
variable {n : Nat} {s s' : RFin} {t : Nat}

theorem rs_file (h : rStep n s (.file t) = some s') : (t < n ∧ (s.th t).phase = .reading) ∧
    s'.th = upd s.th t { s.th t with cpIdx := (s.th t).pending } ∧ s'.cps = s.cps := by
  simp only [rStep] at h
  split at h
  · rename_i hc
    cases h
    exact ⟨hc, rfl, rfl⟩
  · cases h

theorem rs_doneCmd (h : rStep n s (.doneCmd t) = some s') : (t < n ∧ (s.th t).phase = .reading) ∧
    s'.th = upd s.th t { s.th t with cpIdx := (s.th t).pending, phase := .toWait } ∧ s'.cps = s.cps := by
  simp only [rStep] at h
  split at h
  · rename_i hc
    cases h
    exact ⟨hc, rfl, rfl⟩
  · cases h

theorem rs_markWaiting (h : rStep n s (.markWaiting t) = some s') : (t < n ∧ (s.th t).phase = .toWait) ∧
    s'.th = upd s.th t { s.th t with mark := .waiting, phase := .waiting } ∧ s'.cps = s.cps := by
  simp only [rStep] at h
  split at h
  · rename_i hc
    cases h
    exact ⟨hc, rfl, rfl⟩
  · cases h

theorem rs_resume (h : rStep n s (.resume t) = some s') : (t < n ∧ (s.th t).phase = .found) ∧
    s'.th = upd s.th t { s.th t with mark := .running, phase := .sendGlobal } ∧ s'.cps = s.cps := by
  simp only [rStep] at h
  split at h
  · rename_i hc
    cases h
    exact ⟨hc, rfl, rfl⟩
  · cases h

theorem rs_finish (h : rStep n s (.finish t) = some s') : (t < n ∧ (s.th t).phase = .decided) ∧
    s'.th = upd s.th t { s.th t with mark := .finished, phase := .sendDone } ∧ s'.cps = s.cps := by
  simp only [rStep] at h
  split at h
  · rename_i hc
    cases h
    exact ⟨hc, rfl, rfl⟩
  · cases h

theorem rs_globalWritten_true (h : rStep n s (.globalWritten t true) = some s') : (t < n ∧ (s.th t).phase = .sendGlobal) ∧
    s'.th = upd s.th t { s.th t with pending := (s.th t).cpIdx + (s.th t).newCps, phase := .reading } ∧ s'.cps = s.cps := by
  simp only [rStep] at h
  split at h
  · rename_i hc
    cases h
    exact ⟨hc, rfl, rfl⟩
  · cases h

theorem rs_globalWritten_false (h : rStep n s (.globalWritten t false) = some s') : (t < n ∧ (s.th t).phase = .sendGlobal) ∧
    s'.th = upd s.th t { s.th t with phase := .accepting } ∧ s'.cps = s.cps := by
  simp only [rStep] at h
  split at h
  · rename_i hc
    cases h
    exact ⟨hc, rfl, rfl⟩
  · cases h

theorem rs_waitFailed (h : rStep n s (.waitFailed t) = some s') : (t < n ∧ (s.th t).phase = .waiting) ∧
    s'.th = upd s.th t { s.th t with mark := .running, phase := .accepting } ∧ s'.cps = s.cps := by
  simp only [rStep] at h
  split at h
  · rename_i hc
    cases h
    exact ⟨hc, rfl, rfl⟩
  · cases h

theorem rs_doneSent_true (h : rStep n s (.doneSent t true) = some s') : (t < n ∧ (s.th t).phase = .sendDone) ∧
    s'.th = upd s.th t { s.th t with mark := .finished, phase := .ended } ∧ s'.cps = s.cps := by
  simp only [rStep] at h
  split at h
  · rename_i hc
    cases h
    exact ⟨hc, rfl, rfl⟩
  · cases h

theorem rs_doneSent_false (h : rStep n s (.doneSent t false) = some s') : (t < n ∧ (s.th t).phase = .sendDone) ∧
    s'.th = upd s.th t { s.th t with phase := .accepting } ∧ s'.cps = s.cps := by
  simp only [rStep] at h
  split at h
  · rename_i hc
    cases h
    exact ⟨hc, rfl, rfl⟩
  · cases h

theorem rs_connLost (h : rStep n s (.connLost t) = some s') : (t < n ∧ (s.th t).phase = .reading) ∧
    s'.th = upd s.th t { s.th t with phase := .accepting } ∧ s'.cps = s.cps := by
  simp only [rStep] at h
  split at h
  · rename_i hc
    cases h
    exact ⟨hc, rfl, rfl⟩
  · cases h

theorem rs_error (h : rStep n s (.error t) = some s') : (t < n ∧ (s.th t).phase = .reading) ∧
    s'.th = upd s.th t { s.th t with phase := .failing } ∧ s'.cps = s.cps := by
  simp only [rStep] at h
  split at h
  · rename_i hc
    cases h
    exact ⟨hc, rfl, rfl⟩
  · cases h

theorem rs_accepted_true (h : rStep n s (.accepted t true) = some s') : (t < n ∧ (s.th t).phase = .accepting) ∧
    s'.th = upd s.th t { s.th t with pending := (s.th t).cpIdx, phase := .reading } ∧ s'.cps = s.cps := by
  simp only [rStep] at h
  split at h
  · rename_i hc
    cases h
    exact ⟨hc, rfl, rfl⟩
  · cases h

theorem rs_accepted_false (h : rStep n s (.accepted t false) = some s') : (t < n ∧ (s.th t).phase = .accepting) ∧
    s'.th = upd s.th t { s.th t with phase := .failing } ∧ s'.cps = s.cps := by
  simp only [rStep] at h
  split at h
  · rename_i hc
    cases h
    exact ⟨hc, rfl, rfl⟩
  · cases h

theorem rs_look (h : rStep n s (.look t) = some s') : (t < n ∧ (s.th t).phase = .waiting) ∧ s'.cps = s.cps ∧
    ∃ r', s'.th = upd s.th t r' ∧ r'.cpIdx = (s.th t).cpIdx ∧ r'.mark = (s.th t).mark ∧
      (r'.phase = .found ∨ r'.phase = .nothing) := by
  simp only [rStep] at h
  split at h
  · rename_i hc
    split at h <;> cases h
    · exact ⟨⟨hc.1, hc.2.1⟩, rfl, _, rfl, rfl, rfl, .inl rfl⟩
    · exact ⟨⟨hc.1, hc.2.1⟩, rfl, _, rfl, rfl, rfl, .inr rfl⟩
  · cases h

theorem rs_query (h : rStep n s (.query t) = some s') : (t < n ∧ (s.th t).phase = .nothing) ∧ s'.cps = s.cps ∧
    ((s'.th = upd s.th t { s.th t with phase := .waiting }) ∨
     (s'.th = upd s.th t { s.th t with phase := .decided } ∧ ∀ u, u < n → u ≠ t → (s.th u).mark ≠ .running)) := by
  have hd := Decides.spec (n := n) (s := s) (t := t)
  have h0 := h
  simp only [rStep] at h
  split at h
  · rename_i hc
    split at h <;> cases h
    · exact ⟨hc, rfl, .inl rfl⟩
    · exact ⟨hc, rfl, .inr ⟨rfl, (hd ⟨_, h0, by simp [upd_self]⟩).2.2⟩⟩
  · cases h

theorem rs_silentEnd (h : rStep n s (.silentEnd t) = some s') : (t < n ∧ (s.th t).phase ≠ .ended) ∧
    s'.th = upd s.th t { s.th t with mark := .finished, phase := .ended } ∧ s'.cps = s.cps := by
  simp only [rStep] at h
  split at h
  · rename_i hc
    cases h
    refine ⟨⟨hc.1, fun he => ?_⟩, rfl, rfl⟩
    rw [he] at hc; simp at hc
  · cases h

theorem rs_failed (h : rStep n s (.failed t) = some s') : (t < n ∧ (s.th t).phase = .failing) ∧
    s'.th = upd s.th t { s.th t with mark := .finished, phase := .ended } ∧ s'.cps = s.cps ++ [t] := by
  simp only [rStep] at h
  split at h
  · rename_i hc
    cases h
    exact ⟨⟨hc.1, hc.2.1⟩, rfl, rfl⟩
  · cases h

end rs

set_option maxHeartbeats 1000000 in
theorem PInv.stepR {c : ECfg} {S S' : ESys} {e : WEv} (hi : PInv c S) (h : eStepR c S e = some S') : PInv c S' := by
  cases e with
  | accept1 t =>
    simp only [eStepR] at h
    split at h
    · rename_i hc
      split at h
      · rename_i hs
        cases h
        exact hi.portR _ rfl (fun hl => hl.accept1 hc.2.1 hc.2.2 hs) (fun ht => ht.accept1)
      · rename_i hs
        split at h
        · rename_i hm
          cases h
          exact hi.portR _ rfl (fun hl => hl.accept1b hc.2.1 hc.2.2 (by simpa using hs) hm)
            (fun ht => ht.accept1b hc.2.1 hc.2.2)
        · cases h
    · cases h
  | accept t ok =>
    cases ok with
    | true =>
      simp only [eStepR, if_true] at h
      split at h
      · rename_i hm
        obtain ⟨r', h1, rfl⟩ := rcv?_some h
        have h1 : rStep c.n S.rcv _ = some r' := h1
        obtain ⟨hc, hth, hcps⟩ := rs_accepted_true h1
        have := hi.thrR _ (by unfold Port.reply; split <;> rfl) h1 _ hth hcps [] false false
          (fun hl => hl.accept hc.2 hm) (fun G _ _ _ _ _ ht => ht.accept)
        simpa [ESys.setP] using this
      · cases h
    | false =>
      simp only [eStepR, Bool.false_eq_true, if_false] at h
      obtain ⟨r', h1, rfl⟩ := rcv?_some h
      have h1 : rStep c.n S.rcv _ = some r' := h1
      obtain ⟨hc, hth, hcps⟩ := rs_accepted_false h1
      have hc2 : (S.rcv.th t).phase = .accepting := hc.2
      have := hi.thrR ((S.port t).shut (S.port t).last) rfl h1 _ hth hcps [] false false
        (fun hl => hl.shutd (by rw [hc2]; simp) .failing (.inl rfl) (S.port t).last)
        (fun G _ _ _ _ _ ht => ht.closed _ _ (.inr rfl) ht.s2 _ (.inr (.inl rfl)) rfl (.inr (.inl rfl)))
      simpa [ESys.setP] using this
  | recv t =>
    simp only [eStepR] at h
    split at h
    · rename_i b n rest ha hh
      split at h
      · rename_i hn
        obtain ⟨r', h1, rfl⟩ := rcv?_some h
        have h1 : rStep c.n S.rcv _ = some r' := h1
        obtain ⟨hc, hth, hcps⟩ := rs_file h1
        have hc2 : (S.rcv.th t).phase = .reading := hc.2
        subst hn
        by_cases htag : (c.tagged && !c.footer) = true
        · rw [if_pos htag]
          have := hi.thrR { S.port t with hd := some rest, last := none, unver := (S.port t).unver ++ [b] } rfl
            h1 _ hth hcps [⟨b.seqId, b.offset, b.offset + b.size⟩] false false
            (fun hl => by
              have := hl.recvU hc2 b b.size rest hh none
              simpa [hc2] using this)
            (fun G _ hL _ _ _ ht => (ht.filed _ rest hc2 hh).recvU rfl b (some rest) (by rw [hL]; simp) htag)
          simpa [ESys.setP] using this
        · rw [if_neg htag]
          have hun := (hi.thr t).unv (by simpa using htag)
          have := hi.thrR { S.port t with hd := some rest, last := none, counted := (S.port t).counted ++ [b] } rfl
            h1 _ hth hcps [⟨b.seqId, b.offset, b.offset + b.size⟩] false false
            (fun hl => by
              have := hl.recv hc2 b b.size rest hh hun none
              simpa [hc2] using this)
            (fun G _ hL _ _ _ ht => (ht.filed _ rest hc2 hh).recv rfl b (some rest) (by rw [hL]; simp))
          simpa [ESys.setP] using this
      · cases h
    · cases h
  | recvPart t w fatal =>
    simp only [eStepR] at h
    split at h
    · rename_i b n rest ha hh
      split at h
      · rename_i hn
        split at h
        · rename_i S1 hS1
          obtain ⟨r1, h1, rfl⟩ := rcv?_some hS1
          have h1 : rStep c.n S.rcv _ = some r1 := h1
          obtain ⟨r2, h2, rfl⟩ := rcv?_some h
          have h2 : rStep c.n r1 _ = some r2 := h2
          clear hS1
          obtain ⟨hc, hth, hcps⟩ := rs_file h1
          have hc2 : (S.rcv.th t).phase = .reading := hc.2
          have hlast : ∀ G : Ctx, G.landed = S.landed ++ [⟨b.seqId, b.offset, b.offset + w⟩] → ∀ s o x,
              c.lastOf b w = some (s, o, x) → 0 ≤ x ∧ (⟨s, o, o + x⟩ : Landed) ∈ G.landed := by
            intro G hL s o x hx
            unfold ECfg.lastOf at hx
            split at hx
            · cases hx
            · cases hx
              exact ⟨hn.1, by rw [hL]; simp⟩
          have hP1 := hi.thrR (S.port t) rfl h1
            { S.rcv.th t with cpIdx := (S.rcv.th t).pending } hth hcps [⟨b.seqId, b.offset, b.offset + w⟩] false false id
            (fun G _ _ _ _ _ ht => ht.filed _ _ hc2 hh)
          cases fatal with
          | true =>
            obtain ⟨hd, hth2, hcps2⟩ := rs_error h2
            have hd2 : (r1.th t).phase = .reading := hd.2
            have := hP1.thrR ((S.port t).shut (c.lastOf b w)) (by simp [ESys.setP, upd_self, Port.shut]) (t := t) h2
              _ hth2 hcps2 [] false false (fun hl => by
                simp only [ESys.setP, upd_self] at hl ⊢
                exact hl.shutd (by rw [hd2]; simp) .failing (.inl rfl) _)
              (fun G _ hL _ _ _ ht => by
                simp only [ESys.setP, upd_self] at ht ⊢
                exact ht.closed _ _ (.inr rfl) (hlast G (by rw [hL]; simp)) _ (.inr (.inl rfl)) rfl (.inr (.inl rfl)))
            simpa [ESys.setP, upd_same] using this
          | false =>
            obtain ⟨hd, hth2, hcps2⟩ := rs_connLost h2
            have hd2 : (r1.th t).phase = .reading := hd.2
            have := hP1.thrR ((S.port t).drop (c.lastOf b w)) (by simp [ESys.setP, upd_self, Port.drop]) (t := t) h2
              _ hth2 hcps2 [] false false (fun hl => by
                simp only [ESys.setP, upd_self] at hl ⊢
                exact hl.dropped (by rw [hd2]; simp) (.inr ha) _)
              (fun G _ hL _ _ _ ht => by
                simp only [ESys.setP, upd_self] at ht ⊢
                exact ht.closed _ _ (.inl rfl) (hlast G (by rw [hL]; simp)) _ (.inl rfl) rfl (.inr (.inl rfl)))
            simpa [ESys.setP, upd_same] using this
        · cases h
      · cases h
    · cases h
  | recvDone t =>
    simp only [eStepR] at h
    split at h
    · rename_i rest ha hh
      obtain ⟨r', h1, rfl⟩ := rcv?_some h
      have h1 : rStep c.n S.rcv _ = some r' := h1
      obtain ⟨hc, hth, hcps⟩ := rs_doneCmd h1
      have hc2 : (S.rcv.th t).phase = .reading := hc.2
      have := hi.thrR { S.port t with hd := some rest } rfl h1 _ hth hcps [] false false
        (fun hl => hl.recvDone hc2 rest hh)
        (fun G _ _ _ _ _ ht => (ht.filed _ rest hc2 hh).recvDone ha (some rest))
      simpa [ESys.setP] using this
    · cases h
  | lost t reset fatal =>
    have hlast : ∀ G : Ctx, ThrInv c G t (S.port t) (S.snd.thr t).hist (S.rcv.th t) → ∀ s o x,
        (if reset = true then none else (S.port t).last) = some (s, o, x) → 0 ≤ x ∧ (⟨s, o, o + x⟩ : Landed) ∈ G.landed := by
      intro G ht s o x hx
      split at hx
      · cases hx
      · exact ht.s2 s o x hx
    cases fatal with
    | true =>
      simp only [eStepR, if_true] at h
      obtain ⟨r', h1, rfl⟩ := rcv?_some h
      have h1 : rStep c.n S.rcv _ = some r' := h1
      obtain ⟨hc, hth, hcps⟩ := rs_error h1
      have hc2 : (S.rcv.th t).phase = .reading := hc.2
      have := hi.thrR ((S.port t).shut (if reset = true then none else (S.port t).last)) rfl h1 _ hth hcps [] false false
        (fun hl => hl.shutd (by rw [hc2]; simp) .failing (.inl rfl) _)
        (fun G _ _ _ _ _ ht => ht.closed _ _ (.inr rfl) (hlast G ht) _ (.inr (.inl rfl)) rfl (.inr (.inl rfl)))
      simpa [ESys.setP] using this
    | false =>
      simp only [eStepR, Bool.false_eq_true, if_false] at h
      split at h
      · rename_i ha
        obtain ⟨r', h1, rfl⟩ := rcv?_some h
        have h1 : rStep c.n S.rcv _ = some r' := h1
        obtain ⟨hc, hth, hcps⟩ := rs_connLost h1
        have hc2 : (S.rcv.th t).phase = .reading := hc.2
        have := hi.thrR ((S.port t).drop (if reset = true then none else (S.port t).last)) rfl h1 _ hth hcps [] false false
          (fun hl => hl.dropped (by rw [hc2]; simp) (.inr ha) _)
          (fun G _ _ _ _ _ ht => ht.closed _ _ (.inl rfl) (hlast G ht) _ (.inl rfl) rfl (.inr (.inl rfl)))
        simpa [ESys.setP] using this
      · cases h
  | verify t =>
    simp only [eStepR] at h
    split at h
    · rename_i ha
      cases h
      exact hi.portR _ rfl (fun hl => hl.verify ha) (fun ht => ht.verify)
    · cases h
  | markWaiting t =>
    obtain ⟨r', h1, rfl⟩ := rcv?_some h
    have h1 : rStep c.n S.rcv _ = some r' := h1
    obtain ⟨hc, hth, hcps⟩ := rs_markWaiting h1
    have := hi.thrR (S.port t) rfl h1 _ hth hcps [] false false
      (fun hl => hl.phase _ (by rw [hc.2]; rfl) (by rw [hc.2]; simp) rfl)
      (fun G _ _ _ _ _ ht => ht.phase _ (by simp) rfl (fun _ => by rw [hc.2]; rfl) (by simp) (by simp))
    simpa [ESys.setP, upd_same] using this
  | look t =>
    obtain ⟨r', h1, rfl⟩ := rcv?_some h
    have h1 : rStep c.n S.rcv _ = some r' := h1
    obtain ⟨hc, hcps, r2, hth, h2, h3, h4⟩ := rs_look h1
    have := hi.thrR (S.port t) rfl h1 _ hth hcps [] false false
      (fun hl => hl.phase _ (by rw [hc.2]; rfl) (by rw [hc.2]; simp) (by rcases h4 with h4 | h4 <;> rw [h4] <;> rfl))
      (fun G _ _ _ _ _ ht => ht.phase _ (by rcases h4 with h4 | h4 <;> rw [h4] <;> simp) h2 (fun _ => by rw [hc.2]; rfl)
        (fun hm => .inl (by rw [← h3]; exact hm)) (by rcases h4 with h4 | h4 <;> rw [h4] <;> simp))
    simpa [ESys.setP, upd_same] using this
  | resume t =>
    obtain ⟨r', h1, rfl⟩ := rcv?_some h
    have h1 : rStep c.n S.rcv _ = some r' := h1
    obtain ⟨hc, hth, hcps⟩ := rs_resume h1
    have := hi.thrR (S.port t) rfl h1 _ hth hcps [] false false
      (fun hl => hl.phase _ (by rw [hc.2]; rfl) (by rw [hc.2]; simp) rfl)
      (fun G _ _ _ _ _ ht => ht.phase _ (by simp) rfl (fun _ => by rw [hc.2]; rfl) (by simp) (by simp))
    simpa [ESys.setP, upd_same] using this
  | query t =>
    simp only [eStepR] at h
    split at h
    · rename_i S1 hS1
      cases h
      obtain ⟨r', h1, rfl⟩ := rcv?_some hS1
      have h1 : rStep c.n S.rcv _ = some r' := h1
      obtain ⟨hc, hcps, hth | ⟨hth, -⟩⟩ := rs_query h1
      · have := hi.thrR (S.port t) rfl h1 _ hth hcps [] false false
          (fun hl => hl.phase _ (by rw [hc.2]; rfl) (by rw [hc.2]; simp) rfl)
          (fun G _ _ _ _ _ ht => ht.phase _ (by simp) rfl (fun _ => by rw [hc.2]; rfl) (fun hm => .inl hm) (by simp))
        simpa [ESys.setP, upd_same, hth, upd_self] using this
      · have := hi.thrR (S.port t) rfl h1 _ hth hcps [] true false
          (fun hl => hl.phase _ (by rw [hc.2]; rfl) (by rw [hc.2]; simp) rfl)
          (fun G hd _ _ _ _ ht => ht.phase _ (by simp) rfl (fun _ => by rw [hc.2]; rfl) (fun hm => .inl hm)
            (fun _ => by simpa using hd.symm))
        simpa [ESys.setP, upd_same, hth, upd_self] using this
    · cases h
  | finish t =>
    obtain ⟨r', h1, rfl⟩ := rcv?_some h
    have h1 : rStep c.n S.rcv _ = some r' := h1
    obtain ⟨hc, hth, hcps⟩ := rs_finish h1
    have := hi.thrR (S.port t) rfl h1 _ hth hcps [] false false
      (fun hl => hl.phase _ (by rw [hc.2]; rfl) (by rw [hc.2]; simp) rfl)
      (fun G _ _ _ _ _ ht => by
        have hd : G.dec = true := ht.dn (.inr (.inr (.inr (.inl hc.2))))
        exact ht.phase _ (by simp) rfl (fun _ => by rw [hc.2]; rfl) (fun _ => .inr (.inl hd)) (fun _ => hd))
    simpa [ESys.setP, upd_same] using this
  | sendGlobal t ok =>
    simp only [eStepR] at h
    obtain ⟨r', h1, rfl⟩ := rcv?_some h
    have h1 : rStep c.n S.rcv _ = some r' := h1
    cases ok with
    | true =>
      obtain ⟨hc, hth, hcps⟩ := rs_globalWritten_true h1
      have hc2 : (S.rcv.th t).phase = .sendGlobal := hc.2
      have := hi.thrR _ (by unfold Port.reply; split <;> rfl) h1 _ hth hcps [] false false
        (fun hl => hl.sendGlobal hc2
          (((S.rcv.cps.drop (S.rcv.th t).cpIdx).take (S.rcv.th t).newCps).map fun u => (u, S.cpv u)))
        (fun G _ _ _ hcp hcv ht => ht.sendGlobal (hi.loc t) hc2 _ (by
            intro x hx
            simp only [List.mem_map] at hx
            obtain ⟨u, hu, rfl⟩ := hx
            rw [hcp, hcv]
            exact ⟨List.mem_of_mem_drop (List.mem_of_mem_take hu), rfl⟩) (by
            intro i u hiu h1 h2
            rw [hcp] at hiu
            simp only [List.map_map, List.mem_map, Function.comp_apply, exists_eq_right]
            rw [List.mem_iff_getElem?]
            refine ⟨i - (S.rcv.th t).cpIdx, ?_⟩
            rw [List.getElem?_take, if_pos (by omega), List.getElem?_drop]
            rw [show (S.rcv.th t).cpIdx + (i - (S.rcv.th t).cpIdx) = i by omega]
            exact hiu))
      simpa [ESys.setP] using this
    | false =>
      obtain ⟨hc, hth, hcps⟩ := rs_globalWritten_false h1
      have hc2 : (S.rcv.th t).phase = .sendGlobal := hc.2
      have := hi.thrR ((S.port t).drop (S.port t).last) rfl h1 _ hth hcps [] false false
        (fun hl => hl.dropped (by rw [hc2]; simp) (.inl (by rw [hc2]; rfl)) _)
        (fun G _ _ _ hcp hcv ht => ht.closed _ _ (.inl rfl) ht.s2 _ (.inl rfl) rfl (.inr (.inl rfl)))
      simpa [ESys.setP] using this
  | sendWait t ok =>
    cases ok with
    | true =>
      simp only [eStepR, if_true] at h
      split at h
      · rename_i hc
        cases h
        exact hi.portR _ (by unfold Port.reply; split <;> rfl) (fun hl => hl.sendWait hc.2) (fun ht => ht.reply _ (.inl rfl))
      · cases h
    | false =>
      simp only [eStepR, Bool.false_eq_true, if_false] at h
      obtain ⟨r', h1, rfl⟩ := rcv?_some h
      have h1 : rStep c.n S.rcv _ = some r' := h1
      obtain ⟨hc, hth, hcps⟩ := rs_waitFailed h1
      have hc2 : (S.rcv.th t).phase = .waiting := hc.2
      have := hi.thrR ((S.port t).drop (S.port t).last) rfl h1 _ hth hcps [] false false
        (fun hl => hl.dropped (by rw [hc2]; simp) (.inl (by rw [hc2]; rfl)) _)
        (fun G _ _ _ hcp hcv ht => ht.closed _ _ (.inl rfl) ht.s2 _ (.inl rfl) rfl (.inl (by simp)))
      simpa [ESys.setP] using this
  | writeDone t =>
    simp only [eStepR] at h
    split at h
    · rename_i hc
      cases h
      exact hi.portR _ (by unfold Port.reply; split <;> rfl) (fun hl => hl.writeDone hc.2)
        (fun ht => ht.reply _ (.inr ⟨rfl, ht.dn (.inr (.inr (.inr (.inr hc.2))))⟩))
    · cases h
  | doneSent t ok =>
    simp only [eStepR] at h
    obtain ⟨r', h1, rfl⟩ := rcv?_some h
    have h1 : rStep c.n S.rcv _ = some r' := h1
    cases ok with
    | true =>
      obtain ⟨hc, hth, hcps⟩ := rs_doneSent_true h1
      have hc2 : (S.rcv.th t).phase = .sendDone := hc.2
      have := hi.thrR { S.port t with counted := (S.port t).counted ++ (S.port t).unver, unver := [] } rfl
        h1 _ hth hcps [] false false (fun hl => hl.doneSent hc2)
        (fun G _ _ _ hcp hcv ht => by
          have hd : G.dec = true := ht.dn (.inr (.inr (.inr (.inr hc2))))
          exact ht.verify.phase _ (by simp) rfl (by simp [RPhase.synced]) (fun _ => .inr (.inl hd)) (fun _ => hd))
      simpa [ESys.setP] using this
    | false =>
      obtain ⟨hc, hth, hcps⟩ := rs_doneSent_false h1
      have hc2 : (S.rcv.th t).phase = .sendDone := hc.2
      have := hi.thrR ((S.port t).drop (S.port t).last) rfl h1 _ hth hcps [] false false
        (fun hl => hl.dropped (by rw [hc2]; simp) (.inl (by rw [hc2]; rfl)) _)
        (fun G _ _ _ hcp hcv ht => ht.closed _ _ (.inl rfl) ht.s2 _ (.inl rfl) rfl (.inr (.inl rfl)))
      simpa [ESys.setP] using this
  | failed t =>
    simp only [eStepR] at h
    obtain ⟨r', h1, rfl⟩ := rcv?_some h
    have h1 : rStep c.n S.rcv _ = some r' := h1
    obtain ⟨hc, hth, hcps⟩ := rs_failed h1
    have hc2 : (S.rcv.th t).phase = .failing := hc.2
    have hth' : r'.th = upd S.rcv.th t { S.rcv.th t with mark := .finished, phase := .ended } := hth
    have hcps' : r'.cps = S.rcv.cps ++ [t] := hcps
    have hnt : t ∉ S.rcv.cps := fun hm => by
      have := ((hi.loc t).failed hm).1
      rw [hc2] at this; cases this
    have hle : S.ctx.Le (ESys.ctx { S with cpv := upd S.cpv t (S.port t).cp, rcv := r' }) :=
      ⟨by simp only [ESys.ctx, hcps']; exact List.prefix_append _ _,
        fun u hu => upd_ne _ _ (fun e => by subst e; exact hnt hu),
        fun _ h => h, fun _ h => h, id, id, id, id, fun _ h => h⟩
    refine ⟨hi.len, rr_snoc hi.rr h1, ?_, hi.out, ?_, ?_, ?_⟩
    · intro v hv
      simp only [hcps', List.mem_append, List.mem_singleton] at hv
      rcases hv with hv | rfl
      · exact hi.rlt v hv
      · exact hc.1
    · intro v
      simp only [hth', hcps', upd_apply, List.mem_append, List.mem_singleton]
      by_cases hv : v = t
      · subst hv
        have := (hi.loc v).failed' hc2
        simpa using this
      · simp only [hv, if_false, or_false]
        exact hi.loc v
    · intro v
      have hb := hi.bounds v
      have hm := (hi.thr v).mono hle hb.1 hb.2
      by_cases hv : v = t
      · subst hv
        simp only [hth', upd_self]
        exact hm.phase _ (by simp) rfl (by simp [RPhase.synced]) (fun _ => .inr (.inr (by simp [ESys.ctx, hcps']))) (by simp)
      · simp only [hth', upd_ne _ _ hv]
        exact hm
    · intro v hv
      simp only [hcps', List.mem_append, List.mem_singleton] at hv
      simp only [upd_apply]
      by_cases hvt : v = t
      · subst hvt
        simp only [if_true]
        exact (hi.thr v).cpGood
      · simp only [hvt, if_false]
        exact hi.cpg v (by simpa [hvt] using hv)
  | silentEnd t =>
    simp only [eStepR] at h
    obtain ⟨r', h1, rfl⟩ := rcv?_some h
    have h1 : rStep c.n S.rcv _ = some r' := h1
    obtain ⟨hc, hth, hcps⟩ := rs_silentEnd h1
    have := hi.thrR ((S.port t).shut (S.port t).last) rfl h1 _ hth hcps [] false true
      (fun hl => hl.shutd hc.2 .ended (.inr rfl) _)
      (fun G _ _ hsi hcp hcv ht => ht.closed _ _ (.inr rfl) ht.s2 _ (.inr (.inr rfl)) rfl (.inr (.inr (by simpa using hsi))))
    simpa [ESys.setP] using this
  | vanish t =>
    simp only [eStepR] at h
    split at h
    · rename_i hc
      cases h
      exact hi.portR _ rfl (fun hl => hl.vanish hc.1 hc.2.2) (fun ht => ht.vanish)
    · cases h
  | vanishMore t =>
    simp only [eStepR] at h
    split at h
    · rename_i hc
      cases h
      exact hi.portR _ rfl (fun hl => hl.vanishMore hc.2) (fun ht => ht.vanishMore hc.2)
    · cases h

end Wdt
