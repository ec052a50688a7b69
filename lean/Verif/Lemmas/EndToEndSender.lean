import Verif.Lemmas.EndToEnd
/-
Steps of the sender's queue and histories, in the form in which the proofs about whole transfers
use them.
-/
namespace Wdt

/-- A thread of the sender; unused numbers have a thread that never did anything. -/
def SSys.thr (s : SSys) (v : Nat) : SThread := s.threads.getD v {}

theorem thr_of_some {s : SSys} {t : Nat} {th : SThread} (h : s.threads[t]? = some th) : s.thr t = th := by
  simp [SSys.thr, List.getD_eq_getElem?_getD, h]

theorem some_of_lt {s : SSys} {t : Nat} (h : t < s.threads.length) : s.threads[t]? = some (s.thr t) := by
  simp [SSys.thr, List.getD_eq_getElem?_getD, h]

theorem thr_set {s s' : SSys} {t : Nat} {th th' : SThread} (h : s.threads[t]? = some th)
    (hs : s'.threads = s.threads.set t th') : s'.thr = upd s.thr t th' := by
  have hl : t < s.threads.length := by
    rw [List.getElem?_eq_some_iff] at h; exact h.1
  funext v
  simp only [SSys.thr, List.getD_eq_getElem?_getD, hs, upd_apply, List.getElem?_set]
  by_cases hv : v = t
  · subst hv; simp [hl]
  · simp [hv, Ne.symm hv]

theorem thr_same {s s' : SSys} (hs : s'.threads = s.threads) : s'.thr = s.thr := by
  funext v; simp [SSys.thr, hs]

/-- Blocks given back: each was in `orig`; what it lacks now was credited by `cp` or not at all. -/
def Returned (cp : Option Checkpoint) (orig : List Source) (l : List (Source × Source)) : Prop :=
  ∀ p ∈ l, p.1 ∈ orig ∧ p.2.key = p.1.key ∧
    (p.2.offset = p.1.offset ∨ p.2.offset = p.1.offset + cpBytes p.1 cp)

theorem Returned.nil (cp : Option Checkpoint) (orig : List Source) : Returned cp orig [] := by
  intro p hp; cases hp

theorem sStep_pop {s s' : SSys} {t : Nat} {x : Source} (h : sStep s (.pop t x) = .ok s') :
    ∃ th, s.threads[t]? = some th ∧ th.opening = none ∧ th.cur = none ∧ th.hist.inUse = true ∧ x ∈ s.q.queue ∧
      s' = { s with q := { s.q with queue := s.q.queue.erase x }, threads := s.threads.set t { th with opening := some x } } := by
  simp only [sStep] at h
  split at h
  · rename_i h' hth
    split at h
    · cases h
    · rename_i hu
      simp only [popSource] at h
      split at h
      · cases h
      · rename_i q hq
        split at hq
        · rename_i htop
          cases hq; cases h
          refine ⟨_, hth, rfl, rfl, by simpa using hu, ?_, rfl⟩
          simp only [IsTop, Bool.and_eq_true, List.contains_iff_mem] at htop
          exact htop.1
        · cases hq
  · cases h

theorem sStep_openOk {s s' : SSys} {t : Nat} (h : sStep s (.openOk t) = .ok s') :
    ∃ th x, s.threads[t]? = some th ∧ th.opening = some x ∧ th.cur = none ∧
      s' = { s with q := { s.q with deq := s.q.deq + 1 },
                    threads := s.threads.set t { th with opening := none, cur := some (openedSource x) } } := by
  simp only [sStep] at h
  split at h
  · rename_i h' x hth
    cases h
    exact ⟨_, x, hth, rfl, rfl, rfl⟩
  · cases h

theorem sStep_openFail {s s' : SSys} {t : Nat} (h : sStep s (.openFail t) = .ok s') :
    ∃ th x, s.threads[t]? = some th ∧ th.opening = some x ∧ th.cur = none ∧
      s' = { s with q := { s.q with failed := s.q.failed ++ [openFailedSource x] },
                    threads := s.threads.set t { th with opening := none } } := by
  simp only [sStep] at h
  split at h
  · rename_i h' x hth
    cases h
    exact ⟨_, x, hth, rfl, rfl, rfl⟩
  · cases h

/-- What `giveBack` leaves. -/
def gaveBack (s : SSys) (t : Nat) (th : SThread) (l : List (Source × Source)) : SSys :=
  { s with q := { s.q with queue := s.q.queue ++ l.map Prod.snd, deq := s.q.deq - l.length },
           threads := s.threads.set t th, credits := s.credits ++ l.map creditOf }

theorem sStep_sent {s s' : SSys} {t : Nat} {o : SendOut} {th : SThread} {x : Source} (hth : s.threads[t]? = some th)
    (hc : th.cur = some x) (ho : th.opening = none) (h : sStep s (.sent t o) = .ok s') :
    ∃ H' l, s' = gaveBack s t ⟨H', none, none⟩ l ∧ H'.inUse = th.hist.inUse ∧ H'.globalCp = th.hist.globalCp ∧
      ((th.hist.globalCp = false ∧ (∃ x', x'.key = x.key ∧ x'.offset = x.offset ∧ x'.wire = x.wire ∧
          H'.history = th.hist.history ++ [x']) ∧
        H'.lastCp = th.hist.lastCp ∧ l = []) ∨
       (th.hist.globalCp = true ∧ H'.history = th.hist.history ∧ H'.lastCp = none ∧
        ∃ x', x'.key = x.key ∧ x'.offset = x.offset ∧ x'.seqId = x.seqId ∧ Returned th.hist.lastCp [x'] l)) := by
  obtain ⟨hist, op, cur⟩ := th
  simp only at hc ho
  subst hc ho
  simp only [sStep, hth] at h
  by_cases hg : hist.globalCp = true
  · simp only [addSource, hg, if_true] at h
    have := giveBack_ok h
    refine ⟨_, _, this, rfl, hg.symm, .inr ⟨hg, rfl, rfl, { x with stats := x.stats.add (sendStats x o) }, rfl, rfl, rfl, ?_⟩⟩
    intro p hp
    simp only [List.mem_singleton] at hp
    subst hp
    exact ⟨by simp, markFailed_key _ _ _, .inr (markFailed_offset _ _ _).1⟩
  · have hg' : hist.globalCp = false := by simpa using hg
    simp only [addSource, hg', Bool.false_eq_true, if_false] at h
    have := giveBack_ok h
    exact ⟨_, _, this, rfl, hg'.symm, .inl ⟨hg', ⟨{ x with stats := x.stats.add (sendStats x o) }, rfl, rfl, rfl, rfl⟩, rfl, rfl⟩⟩

theorem setCheckpoint_back {h : Hist} {cp : Checkpoint} {g : Bool} {code : CpRes} {h' : Hist}
    {l : List (Source × Source)} (hs : setCheckpoint h cp g = .ok (code, h', l)) : Returned (some cp) h.history l := by
  rcases setCheckpoint_ok _ _ _ _ _ _ hs with ⟨_, _, rfl⟩ | ⟨_, _, _, hl, _⟩
  · exact Returned.nil _ _
  · intro p hp
    have e : l = (failBack cp (h.history.drop cp.numBlocks.toNat).reverse h.stats).1 := congrArg Prod.fst hl
    rw [e] at hp
    obtain ⟨h1, h2⟩ := failBack_pairs _ _ _ p hp
    refine ⟨List.mem_of_mem_drop (List.mem_reverse.1 h1), ?_⟩
    rcases h2 with ⟨ts, h2⟩ | ⟨-, ts, h2⟩ <;> rw [h2]
    · exact ⟨markFailed_key _ _ _, .inl (by rw [(markFailed_offset _ _ _).1]; simp [cpBytes])⟩
    · exact ⟨markFailed_key _ _ _, .inr (markFailed_offset _ _ _).1⟩

/-- A checkpoint for a thread. -/
theorem applyCp_shape {s s' : SSys} {t : Nat} {th : SThread} {cp : Checkpoint} {g : Bool}
    (h : applyCp s t th (setCheckpoint th.hist cp g) = .ok s') :
    ∃ H' l, s' = gaveBack s t { th with hist := H' } l ∧ Returned (some cp) th.hist.history l ∧
      H'.inUse = th.hist.inUse ∧
      ((refusedCp th.hist cp g = true ∧ H' = th.hist ∧ l = []) ∨
       (refusedCp th.hist cp g = false ∧ 0 ≤ cp.numBlocks ∧ cp.numBlocks ≤ th.hist.history.length ∧
        H'.history = th.hist.history.take cp.numBlocks.toNat ∧ H'.lastCp = some cp ∧
        H'.globalCp = (th.hist.globalCp || g))) := by
  unfold applyCp at h
  split at h
  · cases h
  · rename_i code h' l hcp
    have hb := setCheckpoint_back hcp
    refine ⟨h', l, giveBack_ok h, hb, ?_⟩
    rcases setCheckpoint_ok _ _ _ _ _ _ hcp with ⟨rfl, rfl, rfl⟩ | ⟨h1, h2, h3, h4, h5, h6, h7, h8, h9⟩
    · exact ⟨rfl, .inl ⟨by simp [refusedCp, hcp], rfl, rfl⟩⟩
    · refine ⟨h9, .inr ⟨?_, h2, h3, h5, h7, h8⟩⟩
      unfold refusedCp
      rw [hcp]
      cases code <;> simp_all

theorem sStep_localCp {s s' : SSys} {t : Nat} {cp : Checkpoint} (h : sStep s (.localCp t cp) = .ok s') :
    ∃ th, s.threads[t]? = some th ∧ th.cur = none ∧ th.opening = none ∧ th.hist.inUse = true ∧
      applyCp s t th (setCheckpoint th.hist cp false) = .ok s' := by
  simp only [sStep] at h
  split at h
  · rename_i th hth
    split at h
    · cases h
    · rename_i hc
      refine ⟨th, hth, ?_, ?_, ?_, h⟩ <;> revert hc <;> cases th.cur <;> cases th.opening <;> cases th.hist.inUse <;> simp
  · cases h

theorem sStep_globalCp {s s' : SSys} {t : Nat} {cp : Checkpoint} (ht : t < s.threads.length)
    (h : sStep s (.globalCp t cp) = .ok s') :
    applyCp s t (s.thr t) (setCheckpoint (s.thr t).hist cp true) = .ok s' := by
  simpa only [sStep, some_of_lt ht] using h

theorem sStep_markAll {s s' : SSys} {t : Nat} (h : sStep s (.markAll t) = .ok s') :
    ∃ th, s.threads[t]? = some th ∧ s' = { s with threads := s.threads.set t { th with hist := markAll th.hist } } := by
  simp only [sStep] at h
  split at h
  · rename_i th hth
    cases h
    exact ⟨th, hth, rfl⟩
  · cases h

theorem sStep_exit {s s' : SSys} {t : Nat} (h : sStep s (.exit t) = .ok s') :
    ∃ th, s.threads[t]? = some th ∧ th.cur = none ∧ th.opening = none ∧
      s' = { s with threads := s.threads.set t { th with hist := { th.hist with inUse := false } } } := by
  simp only [sStep] at h
  split at h
  · rename_i th hth
    split at h
    · cases h
    · rename_i hc
      cases h
      refine ⟨th, hth, ?_, ?_, rfl⟩ <;> revert hc <;> cases th.cur <;> cases th.opening <;> simp
  · cases h

theorem sStep_discover {s s' : SSys} {f : FileRec} (h : sStep s (.discover f) = .ok s') :
    s.q.initFinished = false ∧ s'.threads = s.threads ∧ s'.credits = s.credits := by
  simp only [sStep] at h
  split at h
  · cases h
  · rename_i hi
    split at h
    · cases h
    · cases h
      exact ⟨by simpa using hi, rfl, rfl⟩

theorem sStep_finishDiscovery {s s' : SSys} (h : sStep s .finishDiscovery = .ok s') :
    s.q.initFinished = false ∧ s'.threads = s.threads ∧ s'.credits = s.credits := by
  simp only [sStep] at h
  split at h
  · cases h
  · rename_i hi
    cases h
    exact ⟨by simpa using hi, rfl, rfl⟩

theorem sStep_setPrev {s s' : SSys} {infos : List FileChunksInfo} (h : sStep s (.setPrev infos) = .ok s') :
    s'.threads = s.threads ∧ s'.credits = s.credits := by
  simp only [sStep] at h
  split at h
  · cases h
  · cases h
    exact ⟨rfl, rfl⟩

end Wdt
