import Verif.Model.SourceQueue
import Verif.Props.Chunks
/-
Auxiliary facts about the source queue model.
-/
namespace Wdt

/-! ### Comparator -/

theorem srcLess_irrefl (a : Source) : srcLess a a = false := by
  unfold srcLess
  simp

/-- `srcLess` spelled out. -/
theorem srcLess_iff (a b : Source) : srcLess a b = true ↔
    (a.status ≠ TO_BE_DELETED ∧ b.status = TO_BE_DELETED) ∨
    ((a.status = TO_BE_DELETED ↔ b.status = TO_BE_DELETED) ∧
      (b.stats.failedAttempts < a.stats.failedAttempts ∨
        (a.stats.failedAttempts = b.stats.failedAttempts ∧
          (a.size < b.size ∨ (a.size = b.size ∧
            (b.offset < a.offset ∨ (a.offset = b.offset ∧ b.name < a.name))))))) := by
  unfold srcLess
  by_cases h1 : a.status = TO_BE_DELETED <;> by_cases h2 : b.status = TO_BE_DELETED <;>
    simp only [h1, h2, decide_true, decide_false, bne_self_eq_false, Bool.true_bne, Bool.false_bne,
      Bool.not_false, if_true, if_false, true_and, false_and, not_true, not_false_eq_true,
      and_false, and_true, or_false, iff_self, false_or, ne_eq, iff_true, iff_false,
      Bool.false_eq_true] <;>
  · by_cases h3 : a.stats.failedAttempts = b.stats.failedAttempts
    · by_cases h4 : a.size = b.size
      · by_cases h5 : a.offset = b.offset
        · simp [h3, h4, h5]
        · simp [h3, h4, h5]
      · simp [h3, h4]
    · simp [h3]

/-- The comparator is transitive. -/
theorem srcLess_trans (a b c : Source) (h1 : srcLess a b = true) (h2 : srcLess b c = true) :
    srcLess a c = true := by
  rw [srcLess_iff] at *
  rcases h1 with ⟨p1, p2⟩ | ⟨p1, p2⟩
  · rcases h2 with ⟨r1, r2⟩ | ⟨r1, r2⟩
    · exact absurd p2 r1
    · exact Or.inl ⟨p1, r1.1 p2⟩
  · rcases h2 with ⟨r1, r2⟩ | ⟨r1, r2⟩
    · exact Or.inl ⟨fun h => r1 (p1.1 h), r2⟩
    · refine Or.inr ⟨p1.trans r1, ?_⟩
      rcases p2 with p2 | ⟨p2, p2'⟩
      · rcases r2 with r2 | ⟨r2, r2'⟩
        · exact Or.inl (by omega)
        · exact Or.inl (by omega)
      · rcases r2 with r2 | ⟨r2, r2'⟩
        · exact Or.inl (by omega)
        · refine Or.inr ⟨by omega, ?_⟩
          rcases p2' with p3 | ⟨p3, p3'⟩
          · rcases r2' with r3 | ⟨r3, r3'⟩
            · exact Or.inl (by omega)
            · exact Or.inl (by omega)
          · rcases r2' with r3 | ⟨r3, r3'⟩
            · exact Or.inl (by omega)
            · refine Or.inr ⟨by omega, ?_⟩
              rcases p3' with p4 | ⟨p4, p4'⟩
              · rcases r3' with r4 | ⟨r4, r4'⟩
                · exact Or.inl (by omega)
                · exact Or.inl (by omega)
              · rcases r3' with r4 | ⟨r4, r4'⟩
                · exact Or.inl (by omega)
                · exact Or.inr ⟨by omega, List.lt_trans r4' p4'⟩

/-- Blocks of equal priority agree in everything the comparator looks at. -/
theorem srcLess_incomp (a b : Source) : (srcLess a b = false ∧ srcLess b a = false) ↔
    ((a.status = TO_BE_DELETED ↔ b.status = TO_BE_DELETED) ∧
      a.stats.failedAttempts = b.stats.failedAttempts ∧ a.size = b.size ∧ a.offset = b.offset ∧
      a.name = b.name) := by
  constructor
  · rintro ⟨h1, h2⟩
    have n1 : ¬ srcLess a b = true := by rw [h1]; decide
    have n2 : ¬ srcLess b a = true := by rw [h2]; decide
    rw [srcLess_iff] at n1 n2
    have hd : (a.status = TO_BE_DELETED ↔ b.status = TO_BE_DELETED) := by
      constructor
      · intro h
        by_contra hb
        exact n2 (Or.inl ⟨hb, h⟩)
      · intro h
        by_contra hb
        exact n1 (Or.inl ⟨hb, h⟩)
    have h3 : a.stats.failedAttempts = b.stats.failedAttempts := by
      by_contra hne
      rcases Int.lt_or_gt_of_ne hne with h | h
      · exact n2 (Or.inr ⟨hd.symm, Or.inl h⟩)
      · exact n1 (Or.inr ⟨hd, Or.inl h⟩)
    have h4 : a.size = b.size := by
      by_contra hne
      rcases Int.lt_or_gt_of_ne hne with h | h
      · exact n1 (Or.inr ⟨hd, Or.inr ⟨h3, Or.inl h⟩⟩)
      · exact n2 (Or.inr ⟨hd.symm, Or.inr ⟨h3.symm, Or.inl h⟩⟩)
    have h5 : a.offset = b.offset := by
      by_contra hne
      rcases Int.lt_or_gt_of_ne hne with h | h
      · exact n2 (Or.inr ⟨hd.symm, Or.inr ⟨h3.symm, Or.inr ⟨h4.symm, Or.inl h⟩⟩⟩)
      · exact n1 (Or.inr ⟨hd, Or.inr ⟨h3, Or.inr ⟨h4, Or.inl h⟩⟩⟩)
    refine ⟨hd, h3, h4, h5, ?_⟩
    apply List.le_antisymm
    · refine List.not_lt.1 fun h => n1 (Or.inr ⟨hd, Or.inr ⟨h3, Or.inr ⟨h4, Or.inr ⟨h5, h⟩⟩⟩⟩)
    · refine List.not_lt.1 fun h =>
        n2 (Or.inr ⟨hd.symm, Or.inr ⟨h3.symm, Or.inr ⟨h4.symm, Or.inr ⟨h5.symm, h⟩⟩⟩⟩)
  · rintro ⟨hd, h3, h4, h5, h6⟩
    have key : ∀ a b : Source, (a.status = TO_BE_DELETED ↔ b.status = TO_BE_DELETED) →
        a.stats.failedAttempts = b.stats.failedAttempts → a.size = b.size → a.offset = b.offset →
        a.name = b.name → srcLess a b = false := by
      intro a b hd h3 h4 h5 h6
      rw [Bool.eq_false_iff]
      intro h
      rw [srcLess_iff] at h
      rcases h with ⟨p1, p2⟩ | ⟨_, h | ⟨_, h | ⟨_, h | ⟨_, h⟩⟩⟩⟩
      · exact p1 (hd.2 p2)
      · omega
      · omega
      · omega
      · rw [h6] at h; exact List.lt_irrefl _ h
    exact ⟨key a b hd h3 h4 h5 h6, key b a hd.symm h3.symm h4.symm h5.symm h6.symm⟩

/-! ### Creating blocks -/

/-- What one call of `createIntoQueueInternal` does. -/
theorem createInternal_ok (q : QState) (f : FileRec) (q' : QState) (new : List Source)
    (h : createInternal q f = .ok (q', new)) :
    q'.queue = q.queue ++ new ∧ q'.failed = q.failed ∧ q'.deq = q.deq ∧ q'.shared = q.shared ∧
    q'.prev = q.prev ∧ q'.initFinished = q.initFinished ∧ q'.deleteFiles = q.deleteFiles ∧
    q'.blockMb = q.blockMb ∧
    (∃ fuel bl, fileBlocks q.blockMb (lookupPrev q.prev f.name) f.size q.nextSeqId fuel = .ok (some bl) ∧
      new.map (fun s => (s.name, s.offset, s.size)) = bl.map fun b => (f.name, b.offset, b.size)) ∧
    (∀ s ∈ new, s.name = f.name ∧ s.status ≠ TO_BE_DELETED ∧ s.fileSize = f.size ∧
      s.stats = ({} : SrcStats)) ∧
    q.nextSeqId ≤ q'.nextSeqId ∧
    ((∃ i, lookupPrev q.prev f.name = some i ∧ (∀ s ∈ new, s.seqId = i.seqId) ∧ q'.nextSeqId = q.nextSeqId) ∨
      ((∀ s ∈ new, s.seqId = q.nextSeqId) ∧ q'.nextSeqId = q.nextSeqId + 1)) := by
  unfold createInternal at h
  split at h
  · simp at h
  · rename_i hplan
    simp only [Except.ok.injEq, Prod.mk.injEq] at h
    obtain ⟨rfl, rfl⟩ := h
    refine ⟨by simp, rfl, rfl, rfl, rfl, rfl, rfl, rfl, ⟨0, [], ?_, rfl⟩, by simp, Int.le_refl _, ?_⟩
    · unfold fileBlocks; rw [hplan]
    · left
      cases hl : lookupPrev q.prev f.name with
      | none => rw [hl] at hplan; unfold planFile at hplan; simp only at hplan; split at hplan <;> simp at hplan
      | some i => exact ⟨i, rfl, by simp, rfl⟩
  · rename_i p hplan
    split at h
    · simp at h
    · rename_i bl hbl
      simp only [Except.ok.injEq, Prod.mk.injEq] at h
      obtain ⟨rfl, rfl⟩ := h
      have hp : p.status ≠ TO_BE_DELETED ∧
          ((∃ i, lookupPrev q.prev f.name = some i ∧ p.seqId = i.seqId ∧ p.nextSeqId = q.nextSeqId) ∨
            (p.seqId = q.nextSeqId ∧ p.nextSeqId = q.nextSeqId + 1)) := by
        unfold planFile at hplan
        split at hplan
        · split at hplan
          · simp at hplan
          · simp only [Except.ok.injEq, Option.some.injEq] at hplan
            subst hplan
            exact ⟨by simp [NOT_EXISTS, TO_BE_DELETED], Or.inr ⟨rfl, rfl⟩⟩
        · rename_i info hinfo
          split at hplan
          · split at hplan
            · simp at hplan
            · simp only [Except.ok.injEq, Option.some.injEq] at hplan
              subst hplan
              exact ⟨by simp [EXISTS_TOO_LARGE, TO_BE_DELETED], Or.inr ⟨rfl, rfl⟩⟩
          · split at hplan
            · simp at hplan
            · simp at hplan
            · simp only [Except.ok.injEq, Option.some.injEq] at hplan
              subst hplan
              refine ⟨?_, Or.inl ⟨info, hinfo, rfl, rfl⟩⟩
              simp only
              split <;> decide
      refine ⟨rfl, rfl, rfl, rfl, rfl, rfl, rfl, rfl, ⟨fuelFor p.remaining, bl, ?_, ?_⟩, ?_, ?_, ?_⟩
      · unfold fileBlocks; rw [hplan]; simp only; rw [hbl]
      · rw [List.map_map]; rfl
      · intro s hs
        rw [List.mem_map] at hs
        obtain ⟨b, _, rfl⟩ := hs
        exact ⟨rfl, hp.1, rfl, rfl⟩
      · show q.nextSeqId ≤ p.nextSeqId
        rcases hp.2 with ⟨i, _, _, h3⟩ | ⟨_, h3⟩ <;> omega
      · rcases hp.2 with ⟨i, h1, h2, h3⟩ | ⟨h2, h3⟩
        · left
          refine ⟨i, h1, ?_, h3⟩
          intro s hs
          rw [List.mem_map] at hs
          obtain ⟨b, _, rfl⟩ := hs
          exact h2
        · right
          refine ⟨?_, h3⟩
          intro s hs
          rw [List.mem_map] at hs
          obtain ⟨b, _, rfl⟩ := hs
          exact h2

/-- `getRemainingChunks` never fails a check. -/
theorem remainingLoop_noFault (size : Int) (cs : List Interval) : ∀ cur,
    ∃ r, remainingLoop size cur cs = .ok r := by
  induction cs with
  | nil =>
    intro cur
    unfold remainingLoop mkInterval
    split
    · rw [if_pos (by omega)]; exact ⟨_, rfl⟩
    · exact ⟨_, rfl⟩
  | cons c cs ih =>
    intro cur
    unfold remainingLoop mkInterval
    obtain ⟨r, hr⟩ := ih c.stop
    rw [hr]
    split
    · rw [if_pos (by omega)]; exact ⟨_, rfl⟩
    · exact ⟨_, rfl⟩

/-- For a file of non-negative size the only possible fault is the endless loop. -/
theorem createInternal_fault (q : QState) (f : FileRec) (hf : 0 ≤ f.size) (e : Fault)
    (h : createInternal q f = .error e) : e = .hang := by
  unfold createInternal at h
  split at h
  · rename_i hplan
    exfalso
    unfold planFile mkInterval at hplan
    split at hplan
    · rw [if_pos (by omega)] at hplan; simp at hplan
    · rename_i info _
      by_cases hc : info.fileSize > f.size
      · rw [if_pos hc, if_pos (by omega)] at hplan; simp at hplan
      · rw [if_neg hc] at hplan
        obtain ⟨r, hr⟩ := remainingLoop_noFault f.size info.chunks 0
        unfold getRemainingChunks at hplan
        rw [hr] at hplan
        cases r <;> simp at hplan
  · simp at h
  · split at h
    · simp only [Except.error.injEq] at h; exact h.symm
    · simp at h

theorem recreateLoop_fault (fs : List FileRec) : ∀ (q : QState), (∀ f ∈ fs, 0 ≤ f.size) →
    ∀ e, recreateLoop q fs = .error e → e = .hang := by
  induction fs with
  | nil => intro q _ e h; simp [recreateLoop] at h
  | cons f fs ih =>
    intro q hf e h
    unfold recreateLoop at h
    split at h
    · rename_i e' he
      simp only [Except.error.injEq] at h
      subst h
      exact createInternal_fault q f (hf f (by simp)) _ he
    · split at h
      · rename_i e' he
        simp only [Except.error.injEq] at h
        subst h
        exact ih _ (fun g hg => hf g (by simp [hg])) _ he
      · simp at h

/-- The blocks of a list of files, file by file: `(name, offset, size)`. -/
inductive BlocksOf (mb : Int) (prev : List FileChunksInfo) : List FileRec → List (Bytes × Int × Int) → Prop
  | nil : BlocksOf mb prev [] []
  | cons {f : FileRec} {fs : List FileRec} {l : List (Bytes × Int × Int)} {bl : List Block} {next : Int}
      {fuel : Nat} (hb : fileBlocks mb (lookupPrev prev f.name) f.size next fuel = .ok (some bl))
      (h : BlocksOf mb prev fs l) :
      BlocksOf mb prev (f :: fs) ((bl.map fun b => (f.name, b.offset, b.size)) ++ l)

theorem BlocksOf.append {mb : Int} {prev : List FileChunksInfo} {fs gs : List FileRec}
    {l m : List (Bytes × Int × Int)} (h1 : BlocksOf mb prev fs l) (h2 : BlocksOf mb prev gs m) :
    BlocksOf mb prev (fs ++ gs) (l ++ m) := by
  induction h1 with
  | nil => exact h2
  | cons hb _ ih =>
    rw [List.append_assoc, List.cons_append]
    exact BlocksOf.cons hb ih

/-- What the re-creation loop does. -/
theorem recreateLoop_ok (fs : List FileRec) : ∀ (q q' : QState) (new : List Source),
    recreateLoop q fs = .ok (q', new) →
    q'.queue = q.queue ++ new ∧ q'.failed = q.failed ∧ q'.deq = q.deq ∧ q'.shared = q.shared ∧
    q'.prev = q.prev ∧ q'.initFinished = q.initFinished ∧ q'.deleteFiles = q.deleteFiles ∧
    q'.blockMb = q.blockMb ∧
    BlocksOf q.blockMb q.prev fs (new.map fun s => (s.name, s.offset, s.size)) ∧
    (∀ s ∈ new, s.status ≠ TO_BE_DELETED ∧ s.stats = ({} : SrcStats)) := by
  induction fs with
  | nil =>
    intro q q' new h
    simp only [recreateLoop, Except.ok.injEq, Prod.mk.injEq] at h
    obtain ⟨rfl, rfl⟩ := h
    exact ⟨by simp, rfl, rfl, rfl, rfl, rfl, rfl, rfl, BlocksOf.nil, by simp⟩
  | cons f fs ih =>
    intro q q' new h
    unfold recreateLoop at h
    split at h
    · simp at h
    · rename_i q1 s1 h1
      split at h
      · simp at h
      · rename_i q2 s2 h2
        simp only [Except.ok.injEq, Prod.mk.injEq] at h
        obtain ⟨rfl, rfl⟩ := h
        obtain ⟨a1, a2, a3, a4, a5, a6, a7, a8, ⟨fuel, bl, a9, a10⟩, a11, _⟩ := createInternal_ok q f q1 s1 h1
        obtain ⟨b1, b2, b3, b4, b5, b6, b7, b8, b9, b10⟩ := ih q1 q2 s2 h2
        refine ⟨by rw [b1, a1, List.append_assoc], by rw [b2, a2], by rw [b3, a3], by rw [b4, a4],
          by rw [b5, a5], by rw [b6, a6], by rw [b7, a7], by rw [b8, a8], ?_, ?_⟩
        · rw [List.map_append, a10]
          rw [a8, a5] at b9
          exact BlocksOf.cons a9 b9
        · intro s hs
          rcases List.mem_append.1 hs with hs | hs
          · exact ⟨(a11 s hs).2.1, (a11 s hs).2.2.2⟩
          · exact b10 s hs

theorem enqueueDeletions_ok (q : QState) :
    ∃ extra : List FileChunksInfo,
    (enqueueDeletions q).2 = extra.map deletionSource ∧
    (enqueueDeletions q).1.queue = q.queue ++ extra.map deletionSource ∧
    (enqueueDeletions q).1.failed = q.failed ∧ (enqueueDeletions q).1.deq = q.deq ∧
    (enqueueDeletions q).1.prev = q.prev ∧ (enqueueDeletions q).1.initFinished = q.initFinished ∧
    (enqueueDeletions q).1.deleteFiles = q.deleteFiles ∧ (enqueueDeletions q).1.blockMb = q.blockMb ∧
    (enqueueDeletions q).1.nextSeqId = q.nextSeqId ∧
    (enqueueDeletions q).1.shared = q.shared ++ extra.map (fun i => ⟨i.fileName, 0⟩) ∧
    extra = if q.deleteFiles && q.initFinished then
        q.prev.filter (fun i => !(q.shared.any fun f => decide (f.name = i.fileName))) else [] := by
  unfold enqueueDeletions
  cases hd : q.deleteFiles with
  | false => exact ⟨[], by simp [hd]⟩
  | true =>
    cases hi : q.initFinished with
    | false => exact ⟨[], by simp [hd, hi]⟩
    | true =>
      cases hp : q.prev with
      | nil => exact ⟨[], by simp [hd, hi, hp]⟩
      | cons a as =>
        refine ⟨_, ?_, ?_, ?_, ?_, ?_, ?_, ?_, ?_, ?_, ?_, rfl⟩ <;> simp

/-- What `setPreviouslyReceivedChunks` does to the queue. -/
theorem setPrev_ok (q q' : QState) (infos : List FileChunksInfo) (new : List Source)
    (h : setPrev q infos = .ok (q', new)) :
    q.deq = 0 ∧ q'.queue = new ∧ q'.failed = q.failed ∧ q'.deq = q.deq ∧
    q'.prev = infos.foldl insertPrev q.prev ∧ q'.initFinished = q.initFinished ∧
    q'.deleteFiles = q.deleteFiles ∧ q'.blockMb = q.blockMb := by
  unfold setPrev at h
  split at h
  · simp at h
  · rename_i hdeq
    simp only at h
    split at h
    · simp at h
    · rename_i q2 s2 h2
      simp only [Except.ok.injEq, Prod.mk.injEq] at h
      obtain ⟨rfl, rfl⟩ := h
      obtain ⟨b1, b2, b3, b4, b5, b6, b7, b8, b9, b10⟩ := recreateLoop_ok _ _ _ _ h2
      obtain ⟨extra, c1, c2, c3, c4, c5, c6, c7, c8, c9, c10, c11⟩ := enqueueDeletions_ok q2
      refine ⟨by omega, ?_, by rw [c3, b2], by rw [c4, b3], by rw [c5, b5], by rw [c6, b6],
        by rw [c7, b7], by rw [c8, b8]⟩
      rw [c2, b1, c1]; rfl

theorem returnToQueue_ok (ss : List Source) : ∀ (q : QState), (ss.length : Int) ≤ q.deq →
    returnToQueue q ss = .ok { q with queue := q.queue ++ ss, deq := q.deq - ss.length } := by
  induction ss with
  | nil => intro q _; simp [returnToQueue]
  | cons s ss ih =>
    intro q h
    simp only [List.length_cons, Int.natCast_add, Int.natCast_one] at h
    unfold returnToQueue
    rw [if_pos (by omega), ih _ (by simp only; omega)]
    simp only [List.append_assoc, List.singleton_append, List.length_cons, Int.natCast_add,
      Int.natCast_one, Except.ok.injEq, QState.mk.injEq, true_and, and_true]
    omega

theorem takeHeld_ok (l : List (Source × Source)) : ∀ (held held' : List Source),
    takeHeld held l = some held' →
    held.Perm (l.map Prod.fst ++ held') ∧ ∀ p ∈ l, p.1.key = p.2.key := by
  induction l with
  | nil =>
    intro held held' h
    simp only [takeHeld, Option.some.injEq] at h
    subst h
    exact ⟨by simp, by simp⟩
  | cons p l ih =>
    intro held held' h
    obtain ⟨s, s'⟩ := p
    unfold takeHeld at h
    split at h
    · rename_i hc
      simp only [Bool.and_eq_true, List.contains_eq_mem, decide_eq_true_eq] at hc
      obtain ⟨h1, h2⟩ := ih _ _ h
      refine ⟨?_, ?_⟩
      · refine (List.perm_cons_erase hc.1).trans ?_
        exact List.Perm.cons _ h1
      · intro p hp
        rcases List.mem_cons.1 hp with rfl | hp
        · exact hc.2
        · exact h2 p hp
    · simp at h

end Wdt
