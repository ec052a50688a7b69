import Verif.Lemmas.SourceQueue
/-
C16, C17, C29, C51: the sender's queue of blocks under arbitrary histories.
-/
namespace Wdt

/-! ## C17: priority -/

/-- The comparator is a strict weak order. -/
theorem C17_strict_weak_order :
    (∀ a, srcLess a a = false) ∧
    (∀ a b c, srcLess a b = true → srcLess b c = true → srcLess a c = true) ∧
    (∀ a b c, (srcLess a b = false ∧ srcLess b a = false) → (srcLess b c = false ∧ srcLess c b = false) →
      (srcLess a c = false ∧ srcLess c a = false)) := by
  refine ⟨srcLess_irrefl, srcLess_trans, ?_⟩
  intro a b c h1 h2
  rw [srcLess_incomp] at *
  obtain ⟨p1, p2, p3, p4, p5⟩ := h1
  obtain ⟨r1, r2, r3, r4, r5⟩ := h2
  exact ⟨p1.trans r1, p2.trans r2, p3.trans r3, p4.trans r4, p5.trans r5⟩

/-- A non-empty queue has a block that can be handed out. -/
theorem C17_top_exists (q : List Source) (h : q ≠ []) : ∃ s, IsTop q s = true := by
  have key : ∀ q : List Source, q ≠ [] → ∃ s ∈ q, ∀ x ∈ q, srcLess s x = false := by
    intro q
    induction q with
    | nil => intro h; exact absurd rfl h
    | cons a as ih =>
      intro _
      by_cases has : as = []
      · subst has
        exact ⟨a, by simp, by intro x hx; rw [List.mem_singleton] at hx; subst hx; exact srcLess_irrefl _⟩
      · obtain ⟨s, hs, hmax⟩ := ih has
        cases hsa : srcLess s a with
        | false =>
          refine ⟨s, by simp [hs], ?_⟩
          intro x hx
          rcases List.mem_cons.1 hx with rfl | hx
          · exact hsa
          · exact hmax x hx
        | true =>
          refine ⟨a, by simp, ?_⟩
          intro x hx
          rcases List.mem_cons.1 hx with rfl | hx
          · exact srcLess_irrefl _
          · cases hax : srcLess a x with
            | false => rfl
            | true =>
              have := srcLess_trans s a x hsa hax
              rw [hmax x hx] at this
              exact absurd this (by decide)
  obtain ⟨s, hs, hmax⟩ := key q h
  refine ⟨s, ?_⟩
  unfold IsTop
  simp only [Bool.and_eq_true, List.contains_eq_mem, decide_eq_true_eq, List.all_eq_true, Bool.not_eq_true']
  exact ⟨hs, hmax⟩

/-- The block handed out is never worse than one left behind: deletions first,
then fewer failed attempts, then larger, then lower offset, then smaller name. -/
theorem C17_pop_order (q q' : QState) (s x : Source) (h : popSource q s = some q') (hx : x ∈ q'.queue) :
    (x.status = TO_BE_DELETED → s.status = TO_BE_DELETED) ∧
    ((x.status = TO_BE_DELETED ↔ s.status = TO_BE_DELETED) →
      s.stats.failedAttempts ≤ x.stats.failedAttempts ∧
      (s.stats.failedAttempts = x.stats.failedAttempts →
        x.size ≤ s.size ∧
        (x.size = s.size → s.offset ≤ x.offset ∧ (s.offset = x.offset → ¬ x.name < s.name)))) := by
  unfold popSource at h
  split at h
  · rename_i htop
    simp only [Option.some.injEq] at h
    subst h
    unfold IsTop at htop
    simp only [Bool.and_eq_true, List.contains_eq_mem, decide_eq_true_eq, List.all_eq_true,
      Bool.not_eq_true'] at htop
    have hn : ¬ srcLess s x = true := by rw [htop.2 x (List.mem_of_mem_erase hx)]; decide
    rw [srcLess_iff] at hn
    constructor
    · intro hxd
      by_contra hsd
      exact hn (Or.inl ⟨hsd, hxd⟩)
    · intro hd
      have n2 : ∀ P : Prop, P → ((s.status = TO_BE_DELETED ↔ x.status = TO_BE_DELETED) ∧ P) := fun P hP =>
        ⟨hd.symm, hP⟩
      refine ⟨?_, fun e3 => ⟨?_, fun e4 => ⟨?_, fun e5 => ?_⟩⟩⟩
      · by_contra hlt
        exact hn (Or.inr (n2 _ (Or.inl (by omega))))
      · by_contra hlt
        exact hn (Or.inr (n2 _ (Or.inr ⟨e3, Or.inl (by omega)⟩)))
      · by_contra hlt
        exact hn (Or.inr (n2 _ (Or.inr ⟨e3, Or.inr ⟨e4.symm, Or.inl (by omega)⟩⟩)))
      · intro hname
        exact hn (Or.inr (n2 _ (Or.inr ⟨e3, Or.inr ⟨e4.symm, Or.inr ⟨e5, hname⟩⟩⟩)))
  · simp at h

/-- Two blocks of different priority: a retry of a big block waits behind a first
attempt of a small one. -/
example : popSource { blockMb := 0, queue := [
      { name := [97], seqId := 1, fileSize := 100, status := 0, offset := 0, size := 100,
        stats := { failedAttempts := 1 } },
      { name := [98], seqId := 2, fileSize := 3, status := 0, offset := 0, size := 3 }] }
    { name := [98], seqId := 2, fileSize := 3, status := 0, offset := 0, size := 3 } ≠ none := by
  decide +kernel

/-! ## C16: conservation -/

/-- Events that take a block out of the queue. -/
def QEvent.isPop : QEvent → Bool
  | .pop _ => true
  | _ => false

/-- Events that install the receiver's file list. -/
def QEvent.isSetPrev : QEvent → Bool
  | .setPrev _ => true
  | _ => false

/-- The file list is installed before any block is handed out.  The sender
guarantees this: no thread asks for a block before it passed the one-at-a-time
section that installs the list (SenderThread.cpp:506-623, 282-292). -/
def ListFirst (evs : List QEvent) : Prop :=
  evs.Pairwise fun a b => ¬ (a.isPop = true ∧ b.isSetPrev = true)

/-- Everywhere a block can be. -/
def QSys.everywhere (s : QSys) : List Source :=
  s.q.queue ++ s.opening ++ s.held ++ s.acked ++ s.q.failed

/-- Conservation and dequeue counter. -/
structure QInv (s : QSys) : Prop where
  perm : (s.everywhere.map Source.key).Perm (s.created.map Source.key)
  deq : s.q.deq = s.held.length + s.acked.length

/-- Nothing was handed out yet. -/
def QFresh (s : QSys) : Prop := s.opening = [] ∧ s.held = [] ∧ s.acked = [] ∧ s.q.failed = []

theorem perm_of_count {l m : List (Bytes × Int × AllocStatus × Int)} (h : ∀ k, l.count k = m.count k) : l.Perm m :=
  List.perm_iff_count.2 h

theorem key_openedSource (s : Source) : (openedSource s).key = s.key := by
  unfold openedSource; split <;> rfl

theorem key_openFailedSource (s : Source) : (openFailedSource s).key = s.key := rfl

theorem qStep_inv (s : QSys) (e : QEvent) (s' : QSys) (hi : QInv s) (hset : e.isSetPrev = true → QFresh s)
    (h : qStep s e = .ok s') : QInv s' ∧ (QFresh s → e.isPop = false → QFresh s') := by
  obtain ⟨hp, hd⟩ := hi
  have hc := List.perm_iff_count.1 hp
  cases e with
  | discover f =>
    simp only [qStep] at h
    split at h
    · simp at h
    · split at h
      · simp at h
      · rename_i q new hq
        simp only [Res.ok.injEq] at h
        subst h
        unfold discoverFile at hq
        obtain ⟨a1, a2, a3, _⟩ := createInternal_ok _ _ _ _ hq
        refine ⟨⟨?_, ?_⟩, ?_⟩
        · refine perm_of_count fun k => ?_
          have := hc k
          simp only [QSys.everywhere, a1, a2, List.map_append, List.count_append] at this ⊢
          omega
        · simp only; rw [a3]; exact hd
        · rintro ⟨f1, f2, f3, f4⟩ _
          exact ⟨f1, f2, f3, by simp only; rw [a2]; exact f4⟩
  | finishDiscovery =>
    simp only [qStep] at h
    split at h
    · simp at h
    · simp only [Res.ok.injEq] at h
      subst h
      unfold finishDiscovery
      obtain ⟨extra, c1, c2, c3, c4, _⟩ := enqueueDeletions_ok { s.q with initFinished := true }
      refine ⟨⟨?_, ?_⟩, ?_⟩
      · refine perm_of_count fun k => ?_
        have := hc k
        simp only [QSys.everywhere, c1, c2, c3, List.map_append, List.count_append] at this ⊢
        omega
      · simp only; rw [c4]; exact hd
      · rintro ⟨f1, f2, f3, f4⟩ _
        exact ⟨f1, f2, f3, by simp only; rw [c3]; exact f4⟩
  | setPrev infos =>
    obtain ⟨f1, f2, f3, f4⟩ := hset rfl
    simp only [qStep] at h
    split at h
    · simp at h
    · rename_i q new hq
      simp only [Res.ok.injEq] at h
      subst h
      obtain ⟨b0, b1, b2, b3, _⟩ := setPrev_ok _ _ _ _ hq
      refine ⟨⟨?_, ?_⟩, ?_⟩
      · unfold QSys.everywhere
        simp only [b1, b2, f1, f2, f3, f4, List.append_nil]
        exact List.Perm.refl _
      · simp only; rw [b3]; exact hd
      · intro _ _
        exact ⟨f1, f2, f3, by simp only; rw [b2]; exact f4⟩
  | pop x =>
    simp only [qStep] at h
    split at h
    · simp at h
    · rename_i q hq
      simp only [Res.ok.injEq] at h
      subst h
      unfold popSource at hq
      split at hq
      · rename_i htop
        simp only [Option.some.injEq] at hq
        subst hq
        have hmem : x ∈ s.q.queue := by
          unfold IsTop at htop
          simp only [Bool.and_eq_true, List.contains_eq_mem, decide_eq_true_eq] at htop
          exact htop.1
        have hpe := (List.perm_cons_erase hmem).map Source.key
        refine ⟨⟨?_, hd⟩, by intro _ hh; simp [QEvent.isPop] at hh⟩
        refine perm_of_count fun k => ?_
        have h1 := hc k
        have h2 := List.perm_iff_count.1 hpe k
        simp only [QSys.everywhere, List.map_append, List.count_append, List.map_cons] at h1 h2 ⊢
        have e1 := List.count_cons (a := k) (b := x.key) (l := (s.q.queue.erase x).map Source.key)
        have e2 := List.count_cons (a := k) (b := x.key) (l := s.opening.map Source.key)
        omega
      · simp at hq
  | openOk x =>
    simp only [qStep] at h
    split at h
    · rename_i hmem
      simp only [List.contains_eq_mem, decide_eq_true_eq] at hmem
      simp only [Res.ok.injEq] at h
      subst h
      have hpe := (List.perm_cons_erase hmem).map Source.key
      refine ⟨⟨?_, ?_⟩, ?_⟩
      · refine perm_of_count fun k => ?_
        have h1 := hc k
        have h2 := List.perm_iff_count.1 hpe k
        simp only [QSys.everywhere, List.map_append, List.count_append, List.map_cons,
          key_openedSource] at h1 h2 ⊢
        have e1 := List.count_cons (a := k) (b := x.key) (l := (s.opening.erase x).map Source.key)
        have e2 := List.count_cons (a := k) (b := x.key) (l := s.held.map Source.key)
        omega
      · simp only [List.length_cons]; omega
      · rintro ⟨f1, _⟩ _
        rw [f1] at hmem; cases hmem
    · simp at h
  | openFail x =>
    simp only [qStep] at h
    split at h
    · rename_i hmem
      simp only [List.contains_eq_mem, decide_eq_true_eq] at hmem
      simp only [Res.ok.injEq] at h
      subst h
      have hpe := (List.perm_cons_erase hmem).map Source.key
      refine ⟨⟨?_, hd⟩, ?_⟩
      · refine perm_of_count fun k => ?_
        have h1 := hc k
        have h2 := List.perm_iff_count.1 hpe k
        simp only [QSys.everywhere, List.map_append, List.count_append, List.map_cons, List.map_nil,
          key_openFailedSource] at h1 h2 ⊢
        have e1 := List.count_cons (a := k) (b := x.key) (l := (s.opening.erase x).map Source.key)
        have e2 := List.count_cons (a := k) (b := x.key) (l := ([] : List (Bytes × Int × AllocStatus × Int)))
        simp only [List.count_nil] at e2
        omega
      · rintro ⟨f1, _⟩ _
        rw [f1] at hmem; cases hmem
    · simp at h
  | giveBack l =>
    simp only [qStep] at h
    split at h
    · simp at h
    · rename_i held hh
      obtain ⟨t1, t2⟩ := takeHeld_ok l _ _ hh
      have hlen := t1.length_eq
      simp only [List.length_append, List.length_map] at hlen
      rw [returnToQueue_ok _ _ (by simp only [List.length_map]; omega)] at h
      simp only [Res.ok.injEq] at h
      subst h
      have hkeys : l.map (fun p => p.1.key) = l.map (fun p => p.2.key) :=
        List.map_congr_left fun p hp => t2 p hp
      refine ⟨⟨?_, ?_⟩, ?_⟩
      · refine perm_of_count fun k => ?_
        have h1 := hc k
        have h2 := List.perm_iff_count.1 (t1.map Source.key) k
        simp only [QSys.everywhere, List.map_append, List.count_append, List.map_map] at h1 h2 ⊢
        have e : List.map (Source.key ∘ Prod.fst) l = List.map (Source.key ∘ Prod.snd) l := hkeys
        rw [e] at h2
        omega
      · simp only [List.length_map]; omega
      · rintro ⟨f1, f2, f3, f4⟩ _
        refine ⟨f1, ?_, f3, f4⟩
        rw [f2] at hlen
        simp only [List.length_nil] at hlen
        exact List.eq_nil_of_length_eq_zero (by simp only; omega)
  | ack x =>
    simp only [qStep] at h
    split at h
    · rename_i hmem
      simp only [List.contains_eq_mem, decide_eq_true_eq] at hmem
      simp only [Res.ok.injEq] at h
      subst h
      have hpe := (List.perm_cons_erase hmem).map Source.key
      have hl := (List.perm_cons_erase hmem).length_eq
      refine ⟨⟨?_, ?_⟩, ?_⟩
      · refine perm_of_count fun k => ?_
        have h1 := hc k
        have h2 := List.perm_iff_count.1 hpe k
        simp only [QSys.everywhere, List.map_append, List.count_append, List.map_cons] at h1 h2 ⊢
        have e1 := List.count_cons (a := k) (b := x.key) (l := (s.held.erase x).map Source.key)
        have e2 := List.count_cons (a := k) (b := x.key) (l := s.acked.map Source.key)
        omega
      · simp only [List.length_cons] at hl ⊢; omega
      · rintro ⟨_, f2, _⟩ _
        rw [f2] at hmem; cases hmem
    · simp at h

theorem qRun_inv (evs : List QEvent) : ∀ (s s' : QSys), QInv s → ListFirst evs →
    (∀ e ∈ evs, e.isSetPrev = true → QFresh s) → qRun s evs = .ok s' → QInv s' := by
  induction evs with
  | nil =>
    intro s s' hi _ _ h
    simp only [qRun, Res.ok.injEq] at h
    subst h; exact hi
  | cons e evs ih =>
    intro s s' hi hl hset h
    unfold qRun at h
    split at h
    · rename_i s1 h1
      obtain ⟨i1, i2⟩ := qStep_inv s e s1 hi (fun he => hset e (by simp) he) h1
      unfold ListFirst at hl
      rw [List.pairwise_cons] at hl
      refine ih s1 s' i1 hl.2 ?_ h
      intro e' he' hs'
      refine i2 (hset e' (by simp [he']) hs') ?_
      cases hpop : e.isPop with
      | false => rfl
      | true => exact absurd ⟨hpop, hs'⟩ (hl.1 e' he')
    · simp at h
    · simp at h

theorem QInv.init (mb : Int) (del : Bool) : QInv (QSys.init mb del) :=
  ⟨List.Perm.refl _, rfl⟩

/-- Every block made by discovery is in exactly one place: waiting, being
opened, held by a thread, acknowledged, or failed (as multisets). -/
theorem C16_conservation (mb : Int) (del : Bool) (evs : List QEvent) (s : QSys) (hl : ListFirst evs)
    (h : qRun (QSys.init mb del) evs = .ok s) :
    (s.everywhere.map Source.key).Perm (s.created.map Source.key) :=
  (qRun_inv evs _ s (QInv.init mb del) hl (fun _ _ _ => ⟨rfl, rfl, rfl, rfl⟩) h).perm

/-- No `CHECK` of the queue ever fires, whatever the schedule. -/
theorem qRun_noCheck (evs : List QEvent) : ∀ (s : QSys), QInv s → ListFirst evs →
    (∀ e ∈ evs, e.isSetPrev = true → QFresh s) → (∀ f, QEvent.discover f ∈ evs → 0 ≤ f.size) →
    (∀ f ∈ s.q.shared, 0 ≤ f.size) → ∀ e, qRun s evs = .fault e → e = .hang := by
  induction evs with
  | nil => intro s _ _ _ _ _ e h; simp [qRun] at h
  | cons ev evs ih =>
    intro s hi hl hset hsz hsh e h
    have hl0 := hl
    unfold ListFirst at hl
    rw [List.pairwise_cons] at hl
    unfold qRun at h
    split at h
    · rename_i s1 h1
      obtain ⟨i1, i2⟩ := qStep_inv s ev s1 hi (fun he => hset ev (by simp) he) h1
      refine ih s1 i1 hl.2 ?_ (fun f hf => hsz f (by simp [hf])) ?_ e h
      · intro e' he' hs'
        refine i2 (hset e' (by simp [he']) hs') ?_
        cases hpop : ev.isPop with
        | false => rfl
        | true => exact absurd ⟨hpop, hs'⟩ (hl.1 e' he')
      · -- shared files keep non-negative sizes
        cases ev with
        | discover f =>
          simp only [qStep] at h1
          split at h1
          · simp at h1
          · split at h1
            · simp at h1
            · rename_i q new hq
              simp only [Res.ok.injEq] at h1
              subst h1
              unfold discoverFile at hq
              obtain ⟨_, _, _, a4, _⟩ := createInternal_ok _ _ _ _ hq
              intro g hg
              simp only [a4] at hg
              rcases List.mem_append.1 hg with hg | hg
              · exact hsh g hg
              · rw [List.mem_singleton] at hg
                subst hg
                exact hsz _ (by simp)
        | finishDiscovery =>
          simp only [qStep] at h1
          split at h1
          · simp at h1
          · simp only [Res.ok.injEq] at h1
            subst h1
            unfold finishDiscovery
            obtain ⟨extra, _, _, _, _, _, _, _, _, _, c10, _⟩ := enqueueDeletions_ok { s.q with initFinished := true }
            intro g hg
            simp only [c10] at hg
            rcases List.mem_append.1 hg with hg | hg
            · exact hsh g hg
            · rw [List.mem_map] at hg
              obtain ⟨i, _, rfl⟩ := hg
              exact Int.le_refl _
        | setPrev infos =>
          simp only [qStep] at h1
          split at h1
          · simp at h1
          · rename_i q new hq
            simp only [Res.ok.injEq] at h1
            subst h1
            unfold setPrev at hq
            split at hq
            · simp at hq
            · simp only at hq
              split at hq
              · simp at hq
              · rename_i q2 s2 h2
                simp only [Except.ok.injEq, Prod.mk.injEq] at hq
                obtain ⟨rfl, rfl⟩ := hq
                obtain ⟨_, _, _, b4, _⟩ := recreateLoop_ok _ _ _ _ h2
                obtain ⟨extra, _, _, _, _, _, _, _, _, _, c10, _⟩ := enqueueDeletions_ok q2
                intro g hg
                simp only [c10, b4] at hg
                rcases List.mem_append.1 hg with hg | hg
                · exact hsh g hg
                · rw [List.mem_map] at hg
                  obtain ⟨i, _, rfl⟩ := hg
                  exact Int.le_refl _
        | pop x =>
          simp only [qStep] at h1
          split at h1
          · simp at h1
          · rename_i q hq
            simp only [Res.ok.injEq] at h1
            subst h1
            unfold popSource at hq
            split at hq
            · simp only [Option.some.injEq] at hq
              subst hq
              exact hsh
            · simp at hq
        | openOk x =>
          simp only [qStep] at h1
          split at h1
          · simp only [Res.ok.injEq] at h1
            subst h1
            exact hsh
          · simp at h1
        | openFail x =>
          simp only [qStep] at h1
          split at h1
          · simp only [Res.ok.injEq] at h1
            subst h1
            exact hsh
          · simp at h1
        | giveBack l =>
          simp only [qStep] at h1
          split at h1
          · simp at h1
          · rename_i held hh
            obtain ⟨t1, t2⟩ := takeHeld_ok l _ _ hh
            have hlen := t1.length_eq
            have := hi.deq
            simp only [List.length_append, List.length_map] at hlen
            rw [returnToQueue_ok _ _ (by simp only [List.length_map]; omega)] at h1
            simp only [Res.ok.injEq] at h1
            subst h1
            exact hsh
        | ack x =>
          simp only [qStep] at h1
          split at h1
          · simp only [Res.ok.injEq] at h1
            subst h1
            exact hsh
          · simp at h1
    · rename_i f hf
      simp only [Res.fault.injEq] at h
      subst h
      cases ev with
      | discover g =>
        simp only [qStep] at hf
        split at hf
        · simp at hf
        · split at hf
          · rename_i e' he'
            simp only [Res.fault.injEq] at hf
            subst hf
            exact createInternal_fault _ _ (hsz g (by simp)) _ he'
          · simp at hf
      | finishDiscovery =>
        simp only [qStep] at hf
        split at hf <;> simp at hf
      | setPrev infos =>
        obtain ⟨f1, f2, f3, f4⟩ := hset (.setPrev infos) (by simp) rfl
        have hd := hi.deq
        rw [f2, f3] at hd
        simp only [List.length_nil] at hd
        simp only [qStep] at hf
        split at hf
        · rename_i e' he'
          simp only [Res.fault.injEq] at hf
          subst hf
          unfold setPrev at he'
          rw [if_neg (by omega)] at he'
          simp only at he'
          split at he'
          · rename_i e2 he2
            simp only [Except.error.injEq] at he'
            subst he'
            exact recreateLoop_fault _ _ hsh _ he2
          · simp at he'
        · simp at hf
      | pop x => simp only [qStep] at hf; split at hf <;> simp at hf
      | openOk x => simp only [qStep] at hf; split at hf <;> simp at hf
      | openFail x => simp only [qStep] at hf; split at hf <;> simp at hf
      | giveBack l =>
        simp only [qStep] at hf
        split at hf
        · simp at hf
        · rename_i held hh
          obtain ⟨t1, t2⟩ := takeHeld_ok l _ _ hh
          have hlen := t1.length_eq
          have := hi.deq
          simp only [List.length_append, List.length_map] at hlen
          rw [returnToQueue_ok _ _ (by simp only [List.length_map]; omega)] at hf
          simp at hf
      | ack x => simp only [qStep] at hf; split at hf <;> simp at hf
    · simp at h

theorem C16_no_check_failure (mb : Int) (del : Bool) (evs : List QEvent) (hl : ListFirst evs)
    (hsz : ∀ f, QEvent.discover f ∈ evs → 0 ≤ f.size) (e : Fault)
    (h : qRun (QSys.init mb del) evs = .fault e) : e = .hang :=
  qRun_noCheck evs _ (QInv.init mb del) hl (fun _ _ _ => ⟨rfl, rfl, rfl, rfl⟩) hsz
    (fun f hf => by simp [QSys.init] at hf) e h

/-- If blocks are asked for before the list is installed (which the sender never
does), a block is handed out twice: the race between `getNextSource` and
`setPreviouslyReceivedChunks`, whose check counts only blocks already opened. -/
theorem C16_early_pop_duplicates :
    ∃ evs s, qRun (QSys.init 0 false) evs = .ok s ∧ ¬ ListFirst evs ∧
      ∃ x, x ∈ s.q.queue ∧ x ∈ s.opening := by
  let x : Source := { name := [97], seqId := 1, fileSize := 3, status := 0, offset := 0, size := 3 }
  let y : Source := { name := [97], seqId := 0, fileSize := 3, status := 0, offset := 0, size := 3 }
  refine ⟨[.setPrev [], .discover ⟨[97], 3⟩, .pop y, .setPrev []],
    { q := { blockMb := 0, queue := [y], shared := [⟨[97], 3⟩], nextSeqId := 1, numEntries := 1,
             numBlocks := 1, totalFileSize := 3 }, opening := [y], created := [y] }, ?_, ?_, y, by simp, by simp⟩
  · rfl
  · intro h
    unfold ListFirst at h
    revert h
    simp [QEvent.isPop, QEvent.isSetPrev]

/-- A non-trivial history: two files, one block fails and is retried, one is
acknowledged. -/
example : ∃ evs s, ListFirst evs ∧ qRun (QSys.init 0 false) evs = .ok s ∧ s.acked.length = 1 ∧
    s.q.queue.length = 1 := by
  let x : Source := { name := [97], seqId := 1, fileSize := 3, status := 0, offset := 0, size := 3 }
  let y : Source := { name := [98], seqId := 2, fileSize := 2, status := 0, offset := 0, size := 2 }
  let x' : Source := { x with offset := 1, size := 2 }
  refine ⟨[.discover ⟨[97], 3⟩, .discover ⟨[98], 2⟩, .pop x, .openOk x, .pop y, .openOk y,
    .ack y, .giveBack [(x, x')]], _, ?_, rfl, rfl, rfl⟩
  unfold ListFirst
  simp [QEvent.isPop, QEvent.isSetPrev]

end Wdt
