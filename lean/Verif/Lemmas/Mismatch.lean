import Verif.Model.Mismatch
import Verif.Props.SenderFinish
/- Helper lemmas for `Props/Mismatch.lean`. -/
namespace Wdt

/-- Which bytes of which file a block stands for. -/
def Source.place (x : Source) : (Bytes × Int × AllocStatus × Int) × Int × Int := (x.key, x.offset, x.size)

/-- The blocks waiting to be sent and those sent. -/
def SSys.places (s : SSys) : List ((Bytes × Int × AllocStatus × Int) × Int × Int) :=
  s.q.queue.map Source.place ++ s.threads.flatMap fun th => th.hist.history.map Source.place

theorem markFailed_none_place (x : Source) (ts : SrcStats) (c : Option Checkpoint) (hc : cpBytes x c = 0) :
    (markFailed x ts c).1.place = x.place ∧ (markFailed x ts c).1.offset = x.offset := by
  unfold markFailed
  simp only [hc]
  split <;> simp [advanceOffset, Source.place, Source.key]

theorem failBack_zero (n : Int) : ∀ (l : List Source) (ts : SrcStats),
    (failBack { numBlocks := n } l ts).1.map Prod.fst = l ∧
    ∀ p ∈ (failBack { numBlocks := n } l ts).1, p.2.place = p.1.place ∧ p.2.offset = p.1.offset := by
  intro l
  induction l with
  | nil => intro ts; simp [failBack]
  | cons x r ih =>
    intro ts
    cases r with
    | nil =>
      simp only [failBack, List.map_cons, List.map_nil, true_and, List.mem_singleton]
      rintro p rfl
      exact markFailed_none_place x ts _ rfl
    | cons y r =>
      have := ih (markFailed x ts none).2
      simp only [failBack, List.map_cons, List.mem_cons] at this ⊢
      refine ⟨by rw [this.1], ?_⟩
      rintro p (rfl | hp)
      · exact markFailed_none_place x ts _ rfl
      · exact this.2 p hp

theorem mm_step {s : SSys} {t : Nat} {th : SThread} (hd : PotInv deqPot s) (hst : StoredNonneg s)
    (hz : Stored NotZero s) (hth : s.threads[t]? = some th) (h0 : th.hist.numAcked = 0) :
    ∃ (th' : SThread) (l : List (Source × Source)),
      sStep s (.returnUnacked t) = .ok { s with
        q := { s.q with queue := s.q.queue ++ l.map Prod.snd, deq := s.q.deq - l.length }
        threads := s.threads.set t th', credits := s.credits ++ l.map creditOf } ∧
      th'.opening = th.opening ∧ th'.cur = th.cur ∧ th'.hist.history = [] ∧ th'.hist.numAcked = 0 ∧
      l.map Prod.fst = th.hist.history.reverse ∧
      (∀ p ∈ l, p.2.place = p.1.place ∧ p.2.offset = p.1.offset) := by
  have hm := List.mem_of_getElem? hth
  have hs := hst th hm
  have hzt := hz th hm
  have hn : CpNonneg ({ numBlocks := th.hist.numAcked } : Checkpoint) := nonneg_own _ hs.1
  obtain ⟨s', hs'⟩ := @applyCp_noFault s t th { numBlocks := th.hist.numAcked } false hd hth hn
  have hev : sStep s (.returnUnacked t) = .ok s' := by
    simp only [sStep, hth, returnUnacked]
    exact hs'
  rw [hev]
  unfold applyCp at hs'
  split at hs'
  · simp at hs'
  · rename_i code h' l hc
    have hcode : code ≠ .invalid := by
      intro he
      subst he
      have := (C19_refused_iff th.hist { numBlocks := th.hist.numAcked } false hn).1 ⟨_, _, hc⟩
      rcases this with h1 | ⟨c, hcl, h1 | ⟨_, h2, h3, h4⟩⟩
      · simp only at h1; omega
      · have := (hzt.2.2 c hcl).2
        simp only at h1; omega
      · have := (hzt.2.2 c hcl).1 h2.symm h3.symm
        exact h4 this.symm
    have hgb := giveBack_ok hs'
    have hh : h'.history = [] ∧ h'.numAcked = 0 ∧
        l = (failBack { numBlocks := th.hist.numAcked } th.hist.history.reverse th.hist.stats).1 := by
      unfold setCheckpoint at hc
      split at hc
      · simp only [Except.ok.injEq, Prod.mk.injEq] at hc
        exact absurd hc.1.symm hcode
      · split at hc
        · simp at hc
        · simp only [Except.ok.injEq, Prod.mk.injEq] at hc
          exact absurd hc.1.symm hcode
        · split at hc
          · simp at hc
          · simp only [Except.ok.injEq, Prod.mk.injEq] at hc
            obtain ⟨_, rfl, rfl⟩ := hc
            simp [h0]
    have hfb := failBack_zero th.hist.numAcked th.hist.history.reverse th.hist.stats
    rw [← hh.2.2] at hfb
    exact ⟨{ th with hist := h' }, l, by rw [hgb], rfl, rfl, hh.1, hh.2.1, hfb.1, hfb.2⟩

theorem places_set {α : Type} (f : SThread → List α) (ths : List SThread) (t : Nat) (th th' : SThread)
    (h : ths[t]? = some th) (h' : f th' = []) :
    (f th ++ (ths.set t th').flatMap f).Perm (ths.flatMap f) := by
  induction ths generalizing t with
  | nil => simp at h
  | cons x xs ih =>
    cases t with
    | zero =>
      simp only [List.getElem?_cons_zero, Option.some.injEq] at h
      subst h
      simp [h']
    | succ t =>
      simp only [List.getElem?_cons_succ] at h
      simp only [List.set_cons_succ, List.flatMap_cons]
      have := ih t h
      refine List.Perm.trans ?_ (List.Perm.append_left (f x) this)
      rw [← List.append_assoc, ← List.append_assoc]
      exact List.Perm.append_right _ List.perm_append_comm

/-- What the loop leaves of a thread. -/
def MmThread (cleared : Bool) (th th' : SThread) : Prop :=
  th'.opening = th.opening ∧ th'.cur = th.cur ∧ th'.hist.numAcked = th.hist.numAcked ∧
    (th'.hist.history = th.hist.history ∨ th'.hist.history = []) ∧
    (cleared = true → th'.hist.history = [] ∧ th'.hist.numAcked = 0)

theorem mm_loop : ∀ (ts : List Nat) (s : SSys), PotInv deqPot s → StoredNonneg s → Stored NotZero s →
    (∀ t ∈ ts, t < s.threads.length) →
    ∃ ok s', handleMismatch s ts = .ok (ok, s') ∧ s'.places.Perm s.places ∧ s'.q.failed = s.q.failed ∧
      s'.created = s.created ∧
      (∃ l, s'.credits = s.credits ++ l ∧ ∀ c ∈ l, c.lo = c.hi) ∧ s'.threads.length = s.threads.length ∧
      (∀ (i : Nat) (th' : SThread), s'.threads[i]? = some th' →
        ∃ th, s.threads[i]? = some th ∧ MmThread (ok && decide (i ∈ ts)) th th') ∧
      (ok = false → ∃ th ∈ s.threads, 0 < th.hist.numAcked) ∧
      (ok = true → sRun s (ts.map SEvent.returnUnacked) = .ok s') := by
  intro ts
  induction ts with
  | nil =>
    intro s _ _ _ _
    refine ⟨true, s, rfl, List.Perm.refl _, rfl, rfl, ⟨[], by simp, by simp⟩, rfl, ?_, by simp, fun _ => rfl⟩
    intro i th' h
    exact ⟨th', h, rfl, rfl, rfl, Or.inl rfl, by simp⟩
  | cons t ts ih =>
    intro s hd hst hz ht
    have ht1 := ht t (by simp)
    obtain ⟨th, hth⟩ : ∃ th, s.threads[t]? = some th := ⟨_, List.getElem?_eq_getElem ht1⟩
    have hm := List.mem_of_getElem? hth
    by_cases hpos : 0 < th.hist.numAcked
    · refine ⟨false, s, ?_, List.Perm.refl _, rfl, rfl, ⟨[], by simp, by simp⟩, rfl, ?_, fun _ => ⟨th, hm, hpos⟩, by simp⟩
      · unfold handleMismatch
        rw [hth]
        simp only [if_pos hpos]
      · intro i th' h
        exact ⟨th', h, rfl, rfl, rfl, Or.inl rfl, by simp⟩
    · have h0 : th.hist.numAcked = 0 := by have := (hst th hm).1; omega
      obtain ⟨th1, l, he, e1, e2, e3, e4, e5, e6⟩ := mm_step hd hst hz hth h0
      have hcpok : CpOK deqPot s (.returnUnacked t) := by simp [CpOK, deqPot]
      obtain ⟨ok, s', hf, hp, hfl, hcr, ⟨lc, hlc, hlc0⟩, hlen, hthr, hno, hrun⟩ :=
        ih _ (Pot.step hd (by simp [SEvent.isSetPrev]) hcpok he)
          (stored_step (e := .returnUnacked t) nonneg_own hst trivial he)
          (stored_step (e := .returnUnacked t) (fun _ _ _ _ => rfl) hz trivial he)
          (by intro t' ht'; simp only [List.length_set]; exact ht t' (by simp [ht']))
      refine ⟨ok, s', ?_, ?_, hfl, hcr, ⟨l.map creditOf ++ lc, ?_, ?_⟩, by rw [hlen]; simp, ?_, ?_, ?_⟩
      · unfold handleMismatch
        rw [hth]
        simp only [if_neg hpos, he]
        exact hf
      · refine hp.trans ?_
        unfold SSys.places
        simp only [List.map_append, List.append_assoc]
        refine List.Perm.append_left _ ?_
        have hl : (l.map Prod.snd).map Source.place = (th.hist.history.map Source.place).reverse := by
          rw [← List.map_reverse, ← e5, List.map_map, List.map_map]
          exact List.map_congr_left fun p hp => (e6 p hp).1
        rw [hl]
        refine List.Perm.trans (List.Perm.append_right _ (List.reverse_perm _)) ?_
        exact places_set (fun th => th.hist.history.map Source.place) s.threads t th th1 hth (by simp [e3])
      · rw [hlc, List.append_assoc]
      · intro c hc
        rcases List.mem_append.1 hc with hc | hc
        · obtain ⟨p, hp, rfl⟩ := List.mem_map.1 hc
          exact (e6 p hp).2.symm
        · exact hlc0 c hc
      · intro i th' h'
        obtain ⟨th2, h2, m1, m2, m3, m4, m5⟩ := hthr i th' h'
        simp only at h2
        by_cases hi : t = i
        · subst hi
          rw [List.getElem?_set_self ht1, Option.some.injEq] at h2
          subst h2
          refine ⟨th, hth, m1.trans e1, m2.trans e2, by rw [m3, e4, h0], ?_, ?_⟩
          · rcases m4 with m4 | m4
            · exact Or.inr (m4.trans e3)
            · exact Or.inr m4
          · intro _
            refine ⟨?_, m3.trans e4⟩
            rcases m4 with m4 | m4
            · exact m4.trans e3
            · exact m4
        · rw [List.getElem?_set_ne hi] at h2
          refine ⟨th2, h2, m1, m2, m3, m4, ?_⟩
          intro hb
          simp only [Bool.and_eq_true, decide_eq_true_eq, List.mem_cons] at hb
          refine m5 ?_
          simp only [Bool.and_eq_true, decide_eq_true_eq]
          exact ⟨hb.1, hb.2.resolve_left fun h => hi h.symm⟩
      · intro hk
        obtain ⟨x, hx, hx0⟩ := hno hk
        rcases mem_set_cases _ _ _ _ hx with rfl | hx
        · omega
        · exact ⟨x, hx, hx0⟩
      · intro hk
        rw [List.map_cons]
        unfold sRun
        rw [he]
        exact hrun hk

theorem giveBack_credits {s s' : SSys} {t : Nat} {th : SThread} {l : List (Source × Source)}
    (h : giveBack s t th l = .ok s') : ∃ k, s'.credits = s.credits ++ k := by
  rw [giveBack_ok h]
  exact ⟨_, rfl⟩

theorem applyCp_credits {s s' : SSys} {t : Nat} {th : SThread}
    {r : Except Fault (CpRes × Hist × List (Source × Source))} (h : applyCp s t th r = .ok s') :
    ∃ k, s'.credits = s.credits ++ k := by
  unfold applyCp at h
  split at h
  · simp at h
  · exact giveBack_credits h

theorem sStep_credits {s s' : SSys} {e : SEvent} (h : sStep s e = .ok s') : ∃ k, s'.credits = s.credits ++ k := by
  cases e <;> simp only [sStep] at h <;> (repeat' split at h) <;>
    first
    | (exfalso; simp at h; done)
    | exact giveBack_credits h
    | exact applyCp_credits h
    | (simp only [Res.ok.injEq] at h; subst h; exact ⟨[], by simp⟩)

theorem sRun_credits : ∀ (evs : List SEvent) (s s' : SSys), sRun s evs = .ok s' →
    ∃ k, s'.credits = s.credits ++ k := by
  intro evs
  induction evs with
  | nil => intro s s' h; simp only [sRun, Res.ok.injEq] at h; subst h; exact ⟨[], by simp⟩
  | cons e es ih =>
    intro s s' h
    unfold sRun at h
    split at h
    · rename_i s1 h1
      obtain ⟨k1, hk1⟩ := sStep_credits h1
      obtain ⟨k2, hk2⟩ := ih s1 s' h
      exact ⟨k1 ++ k2, by rw [hk2, hk1, List.append_assoc]⟩
    · simp at h
    · simp at h

end Wdt
