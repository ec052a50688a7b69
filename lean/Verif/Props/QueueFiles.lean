import Verif.Props.SourceQueue
/-
C16 (which blocks are made), C29 (deletions) and C51 (sequence ids), for every
history of the queue in which the receiver's file list is installed at most once
(`Sender::setFileChunksInfo`, Sender.cpp:114-123).
-/
namespace Wdt

/-- Files discovered in a history. -/
def discoveredFiles : List QEvent → List FileRec
  | [] => []
  | .discover f :: es => f :: discoveredFiles es
  | _ :: es => discoveredFiles es

/-- File lists installed in a history. -/
def installedLists : List QEvent → List (List FileChunksInfo)
  | [] => []
  | .setPrev l :: es => l :: installedLists es
  | _ :: es => installedLists es

/-- Did discovery finish? -/
def discoveryFinished : List QEvent → Bool
  | [] => false
  | .finishDiscovery :: _ => true
  | _ :: es => discoveryFinished es

/-- Keep the first entry for each name. -/
def firstOfName (l : List FileChunksInfo) : List FileChunksInfo := l.foldl insertPrev []

def isDeletion (s : Source) : Bool := decide (s.status = TO_BE_DELETED)

/-- Files to delete: reported by the receiver, not discovered. -/
def toDelete (prev : List FileChunksInfo) (D : List FileRec) : List FileChunksInfo :=
  prev.filter fun i => !(D.any fun f => decide (f.name = i.fileName))

structure FInv (mb : Int) (del : Bool) (s : QSys) (D : List FileRec) (P : List (List FileChunksInfo)) : Prop where
  one : P.length ≤ 1
  mb_eq : s.q.blockMb = mb
  del_eq : s.q.deleteFiles = del
  prev_eq : s.q.prev = firstOfName P.flatten
  blocks : BlocksOf mb s.q.prev D
    ((s.created.filter fun x => !isDeletion x).map fun x => (x.name, x.offset, x.size))
  dels : s.created.filter isDeletion =
    (if del && s.q.initFinished then toDelete s.q.prev D else []).map deletionSource
  shared : s.q.shared = D ++
    (if del && s.q.initFinished then toDelete s.q.prev D else []).map fun i => ⟨i.fileName, 0⟩

theorem filter_none {l : List Source} (h : ∀ s ∈ l, s.status ≠ TO_BE_DELETED) :
    l.filter isDeletion = [] ∧ l.filter (fun x => !isDeletion x) = l := by
  constructor
  · rw [List.filter_eq_nil_iff]
    intro s hs; unfold isDeletion; simp [h s hs]
  · rw [List.filter_eq_self]
    intro s hs; unfold isDeletion; simp [h s hs]

theorem filter_dels (l : List FileChunksInfo) :
    (l.map deletionSource).filter isDeletion = l.map deletionSource ∧
    (l.map deletionSource).filter (fun x => !isDeletion x) = [] := by
  constructor
  · rw [List.filter_eq_self]
    intro s hs
    rw [List.mem_map] at hs
    obtain ⟨i, _, rfl⟩ := hs
    rfl
  · rw [List.filter_eq_nil_iff]
    intro s hs
    rw [List.mem_map] at hs
    obtain ⟨i, _, rfl⟩ := hs
    simp [isDeletion, deletionSource]

/-- The pieces of the state that later steps leave alone. -/
theorem FInv.of_eq {mb : Int} {del : Bool} {s s' : QSys} {D : List FileRec} {P : List (List FileChunksInfo)}
    (h : FInv mb del s D P) (h1 : s'.q.blockMb = s.q.blockMb) (h2 : s'.q.deleteFiles = s.q.deleteFiles)
    (h3 : s'.q.prev = s.q.prev) (h4 : s'.created = s.created) (h5 : s'.q.initFinished = s.q.initFinished)
    (h6 : s'.q.shared = s.q.shared) : FInv mb del s' D P :=
  ⟨h.one, by rw [h1, h.mb_eq], by rw [h2, h.del_eq], by rw [h3, h.prev_eq], by rw [h3, h4]; exact h.blocks,
    by rw [h4, h5, h3]; exact h.dels, by rw [h6, h5, h3]; exact h.shared⟩

theorem qStep_frame (s : QSys) (e : QEvent) (s' : QSys) (hi : QInv s) (h : qStep s e = .ok s')
    (h1 : ∀ f, e ≠ .discover f) (h2 : e ≠ .finishDiscovery) (h3 : ∀ l, e ≠ .setPrev l) :
    s'.q.blockMb = s.q.blockMb ∧ s'.q.deleteFiles = s.q.deleteFiles ∧ s'.q.prev = s.q.prev ∧
    s'.created = s.created ∧ s'.q.initFinished = s.q.initFinished ∧ s'.q.shared = s.q.shared ∧
    s'.q.nextSeqId = s.q.nextSeqId := by
  cases e with
  | discover f => exact absurd rfl (h1 f)
  | finishDiscovery => exact absurd rfl h2
  | setPrev l => exact absurd rfl (h3 l)
  | pop x =>
    simp only [qStep] at h
    split at h
    · simp at h
    · rename_i q hq
      simp only [Res.ok.injEq] at h
      subst h
      unfold popSource at hq
      split at hq
      · simp only [Option.some.injEq] at hq
        subst hq
        exact ⟨rfl, rfl, rfl, rfl, rfl, rfl, rfl⟩
      · simp at hq
  | openOk x =>
    simp only [qStep] at h
    split at h
    · simp only [Res.ok.injEq] at h
      subst h
      exact ⟨rfl, rfl, rfl, rfl, rfl, rfl, rfl⟩
    · simp at h
  | openFail x =>
    simp only [qStep] at h
    split at h
    · simp only [Res.ok.injEq] at h
      subst h
      exact ⟨rfl, rfl, rfl, rfl, rfl, rfl, rfl⟩
    · simp at h
  | giveBack l =>
    simp only [qStep] at h
    split at h
    · simp at h
    · rename_i held hh
      obtain ⟨t1, t2⟩ := takeHeld_ok l _ _ hh
      have hlen := t1.length_eq
      have := hi.deq
      simp only [List.length_append, List.length_map] at hlen
      rw [returnToQueue_ok _ _ (by simp only [List.length_map]; omega)] at h
      simp only [Res.ok.injEq] at h
      subst h
      exact ⟨rfl, rfl, rfl, rfl, rfl, rfl, rfl⟩
  | ack x =>
    simp only [qStep] at h
    split at h
    · simp only [Res.ok.injEq] at h
      subst h
      exact ⟨rfl, rfl, rfl, rfl, rfl, rfl, rfl⟩
    · simp at h

theorem FInv.step {mb : Int} {del : Bool} {s s' : QSys} {e : QEvent} {D : List FileRec}
    {P : List (List FileChunksInfo)} (h : FInv mb del s D P) (hi : QInv s)
    (hP : (P ++ installedLists [e]).length ≤ 1) (hs : qStep s e = .ok s') :
    FInv mb del s' (D ++ discoveredFiles [e]) (P ++ installedLists [e]) := by
  obtain ⟨hone, hmb, hdel, hprev, hblocks, hdels, hshared⟩ := h
  cases e with
  | discover f =>
    simp only [qStep] at hs
    split at hs
    · simp at hs
    · rename_i hnf
      have hnf' : s.q.initFinished = false := by simpa using hnf
      split at hs
      · simp at hs
      · rename_i q new hq
        simp only [Res.ok.injEq] at hs
        subst hs
        unfold discoverFile at hq
        obtain ⟨a1, a2, a3, a4, a5, a6, a7, a8, ⟨fuel, bl, a9, a10⟩, a11, _⟩ := createInternal_ok _ _ _ _ hq
        obtain ⟨n1, n2⟩ := filter_none (fun x hx => (a11 x hx).2.1)
        simp only [hnf', Bool.and_false, Bool.false_eq_true, if_false, List.map_nil, List.append_nil] at hdels hshared
        simp only [discoveredFiles, installedLists, List.append_nil]
        refine ⟨hone, by simp only [a8]; exact hmb, by simp only [a7]; exact hdel,
          by simp only [a5]; exact hprev, ?_, ?_, ?_⟩
        · simp only [a5, List.filter_append, List.map_append, n2, a10]
          have : BlocksOf mb s.q.prev [f] ((bl.map fun b => (f.name, b.offset, b.size)) ++ []) := by
            simp only [hmb] at a9
            exact BlocksOf.cons a9 BlocksOf.nil
          rw [List.append_nil] at this
          exact hblocks.append this
        · simp only [a6, hnf', Bool.and_false, Bool.false_eq_true, if_false, List.map_nil,
            List.filter_append, n1, hdels, List.append_nil]
        · simp only [a6, a4, hnf', Bool.and_false, Bool.false_eq_true, if_false, List.map_nil, List.append_nil]
          rw [hshared]
  | finishDiscovery =>
    simp only [qStep] at hs
    split at hs
    · simp at hs
    · rename_i hnf
      have hnf' : s.q.initFinished = false := by simpa using hnf
      simp only [Res.ok.injEq] at hs
      subst hs
      unfold finishDiscovery
      obtain ⟨extra, c1, c2, c3, c4, c5, c6, c7, c8, c9, c10, c11⟩ :=
        enqueueDeletions_ok { s.q with initFinished := true }
      simp only [hnf', Bool.and_false, Bool.false_eq_true, if_false, List.map_nil, List.append_nil] at hdels hshared
      simp only [discoveredFiles, installedLists, List.append_nil]
      have hex : extra = if del && true then toDelete s.q.prev D else [] := by
        rw [c11]
        simp only [hdel, hshared]
        rfl
      refine ⟨hone, by simp only [c8]; exact hmb, by simp only [c7]; exact hdel,
          by simp only [c5]; exact hprev, ?_, ?_, ?_⟩
      · simp only [c5, c1, List.filter_append, (filter_dels extra).2, List.append_nil]
        exact hblocks
      · simp only [c5, c1, c6, List.filter_append, (filter_dels extra).1, hdels, List.nil_append]
        rw [hex]
      · simp only [c10, c5, c6]
        rw [hshared, hex]
  | setPrev infos =>
    simp only [discoveredFiles, installedLists, List.append_nil, List.length_append, List.length_cons,
      List.length_nil] at hP ⊢
    have hP0 : P = [] := List.eq_nil_of_length_eq_zero (by omega)
    subst hP0
    have hprev0 : s.q.prev = [] := by rw [hprev]; rfl
    simp only [qStep] at hs
    split at hs
    · simp at hs
    · rename_i q new hq
      simp only [Res.ok.injEq] at hs
      subst hs
      have hsh : s.q.shared = D := by
        rw [hshared, hprev0]
        unfold toDelete
        cases del && s.q.initFinished <;> simp
      unfold setPrev at hq
      split at hq
      · simp at hq
      · simp only at hq
        split at hq
        · simp at hq
        · rename_i q2 s2 h2
          simp only [Except.ok.injEq, Prod.mk.injEq] at hq
          obtain ⟨rfl, rfl⟩ := hq
          obtain ⟨b1, b2, b3, b4, b5, b6, b7, b8, b9, b10⟩ := recreateLoop_ok _ _ _ _ h2
          obtain ⟨extra, c1, c2, c3, c4, c5, c6, c7, c8, c9, c10, c11⟩ := enqueueDeletions_ok q2
          simp only at b4 b5 b6 b7 b8 b9
          have hpv : q2.prev = firstOfName infos := by rw [b5, hprev0]; rfl
          have hex : extra = if del && s.q.initFinished then toDelete q2.prev D else [] := by
            rw [c11, b7, hdel, b6, b4, hsh]; rfl
          obtain ⟨n1, n2⟩ := filter_none (fun x hx => (b10 x hx).1)
          refine ⟨by simp, by simp only [c8, b8]; exact hmb, by simp only [c7, b7]; exact hdel,
            by simp only [c5, hpv, List.nil_append, List.flatten_cons, List.flatten_nil, List.append_nil], ?_, ?_, ?_⟩
          · simp only [c5, c1, List.filter_append, (filter_dels extra).2, n2, List.append_nil, hpv]
            rw [hprev0, hmb, hsh] at b9
            exact b9
          · simp only [c5, c6, b6, c1, List.filter_append, (filter_dels extra).1, n1, List.nil_append]
            rw [hex]
          · simp only [c10, c5, c6, b6, b4, hsh]
            rw [hex]
  | pop x =>
    obtain ⟨e1, e2, e3, e4, e5, e6, _⟩ := qStep_frame s _ s' hi hs (by simp) (by simp) (by simp)
    simp only [discoveredFiles, installedLists, List.append_nil]
    exact FInv.of_eq ⟨hone, hmb, hdel, hprev, hblocks, hdels, hshared⟩ e1 e2 e3 e4 e5 e6
  | openOk x =>
    obtain ⟨e1, e2, e3, e4, e5, e6, _⟩ := qStep_frame s _ s' hi hs (by simp) (by simp) (by simp)
    simp only [discoveredFiles, installedLists, List.append_nil]
    exact FInv.of_eq ⟨hone, hmb, hdel, hprev, hblocks, hdels, hshared⟩ e1 e2 e3 e4 e5 e6
  | openFail x =>
    obtain ⟨e1, e2, e3, e4, e5, e6, _⟩ := qStep_frame s _ s' hi hs (by simp) (by simp) (by simp)
    simp only [discoveredFiles, installedLists, List.append_nil]
    exact FInv.of_eq ⟨hone, hmb, hdel, hprev, hblocks, hdels, hshared⟩ e1 e2 e3 e4 e5 e6
  | giveBack l =>
    obtain ⟨e1, e2, e3, e4, e5, e6, _⟩ := qStep_frame s _ s' hi hs (by simp) (by simp) (by simp)
    simp only [discoveredFiles, installedLists, List.append_nil]
    exact FInv.of_eq ⟨hone, hmb, hdel, hprev, hblocks, hdels, hshared⟩ e1 e2 e3 e4 e5 e6
  | ack x =>
    obtain ⟨e1, e2, e3, e4, e5, e6, _⟩ := qStep_frame s _ s' hi hs (by simp) (by simp) (by simp)
    simp only [discoveredFiles, installedLists, List.append_nil]
    exact FInv.of_eq ⟨hone, hmb, hdel, hprev, hblocks, hdels, hshared⟩ e1 e2 e3 e4 e5 e6

theorem discoveredFiles_cons (e : QEvent) (es : List QEvent) :
    discoveredFiles (e :: es) = discoveredFiles [e] ++ discoveredFiles es := by
  cases e <;> rfl

theorem installedLists_cons (e : QEvent) (es : List QEvent) :
    installedLists (e :: es) = installedLists [e] ++ installedLists es := by
  cases e <;> rfl

theorem qRun_finv {mb : Int} {del : Bool} (evs : List QEvent) : ∀ (s s' : QSys) (D : List FileRec)
    (P : List (List FileChunksInfo)), FInv mb del s D P → QInv s → ListFirst evs →
    (∀ e ∈ evs, e.isSetPrev = true → QFresh s) → (P ++ installedLists evs).length ≤ 1 →
    qRun s evs = .ok s' → FInv mb del s' (D ++ discoveredFiles evs) (P ++ installedLists evs) ∧
      (s'.q.initFinished = (s.q.initFinished || discoveryFinished evs)) := by
  induction evs with
  | nil =>
    intro s s' D P h _ _ _ _ hr
    simp only [qRun, Res.ok.injEq] at hr
    subst hr
    simp only [discoveredFiles, installedLists, List.append_nil, discoveryFinished, Bool.or_false]
    exact ⟨h, trivial⟩
  | cons e evs ih =>
    intro s s' D P h hi hl hset hP hr
    unfold qRun at hr
    split at hr
    · rename_i s1 h1
      rw [installedLists_cons, ← List.append_assoc] at hP
      have hP1 : (P ++ installedLists [e]).length ≤ 1 := by
        rw [List.length_append] at hP; omega
      obtain ⟨i1, i2⟩ := qStep_inv s e s1 hi (fun he => hset e (by simp) he) h1
      unfold ListFirst at hl
      rw [List.pairwise_cons] at hl
      have hset1 : ∀ e' ∈ evs, e'.isSetPrev = true → QFresh s1 := by
        intro e' he' hs'
        refine i2 (hset e' (by simp [he']) hs') ?_
        cases hpop : e.isPop with
        | false => rfl
        | true => exact absurd ⟨hpop, hs'⟩ (hl.1 e' he')
      obtain ⟨r1, r2⟩ := ih s1 s' _ _ (h.step hi hP1 h1) i1 hl.2 hset1 hP hr
      rw [discoveredFiles_cons, installedLists_cons, ← List.append_assoc, ← List.append_assoc]
      refine ⟨r1, ?_⟩
      rw [r2]
      cases e with
      | discover f =>
        simp only [qStep] at h1
        split at h1
        · simp at h1
        · split at h1
          · simp at h1
          · rename_i q new hq
            simp only [Res.ok.injEq] at h1
            subst h1
            unfold discoverFile at hq
            obtain ⟨_, _, _, _, _, a6, _⟩ := createInternal_ok _ _ _ _ hq
            simp only [a6, discoveryFinished]
      | finishDiscovery =>
        simp only [qStep] at h1
        split at h1
        · simp at h1
        · simp only [Res.ok.injEq] at h1
          subst h1
          unfold finishDiscovery
          obtain ⟨_, _, _, _, _, _, c6, _⟩ := enqueueDeletions_ok { s.q with initFinished := true }
          simp only [c6, discoveryFinished, Bool.true_or, Bool.or_true]
      | setPrev infos =>
        simp only [qStep] at h1
        split at h1
        · simp at h1
        · rename_i q new hq
          simp only [Res.ok.injEq] at h1
          subst h1
          obtain ⟨_, _, _, _, _, b5, _⟩ := setPrev_ok _ _ _ _ hq
          simp only [b5, discoveryFinished]
      | pop x =>
        obtain ⟨_, _, _, _, e5, _⟩ := qStep_frame s _ s1 hi h1 (by simp) (by simp) (by simp)
        rw [e5]; rfl
      | openOk x =>
        obtain ⟨_, _, _, _, e5, _⟩ := qStep_frame s _ s1 hi h1 (by simp) (by simp) (by simp)
        rw [e5]; rfl
      | openFail x =>
        obtain ⟨_, _, _, _, e5, _⟩ := qStep_frame s _ s1 hi h1 (by simp) (by simp) (by simp)
        rw [e5]; rfl
      | giveBack l =>
        obtain ⟨_, _, _, _, e5, _⟩ := qStep_frame s _ s1 hi h1 (by simp) (by simp) (by simp)
        rw [e5]; rfl
      | ack x =>
        obtain ⟨_, _, _, _, e5, _⟩ := qStep_frame s _ s1 hi h1 (by simp) (by simp) (by simp)
        rw [e5]; rfl
    · simp at hr
    · simp at hr

theorem FInv.init (mb : Int) (del : Bool) : FInv mb del (QSys.init mb del) [] [] := by
  refine ⟨by simp, rfl, rfl, rfl, BlocksOf.nil, ?_, ?_⟩ <;> simp [QSys.init]

theorem final_finv (mb : Int) (del : Bool) (evs : List QEvent) (s : QSys) (hl : ListFirst evs)
    (h1 : (installedLists evs).length ≤ 1) (h : qRun (QSys.init mb del) evs = .ok s) :
    FInv mb del s (discoveredFiles evs) (installedLists evs) ∧ s.q.initFinished = discoveryFinished evs := by
  obtain ⟨r1, r2⟩ := qRun_finv evs _ s [] [] (FInv.init mb del) (QInv.init mb del) hl
    (fun _ _ _ => ⟨rfl, rfl, rfl, rfl⟩) (by simpa using h1) h
  refine ⟨by simpa using r1, ?_⟩
  rw [r2]; rfl

/-! ## Which blocks are made -/

/-- The non-deletion blocks are exactly the blocks of the discovered files, file
by file, taking into account what the receiver already has; this holds whether
the receiver's list arrives before, while or after files are discovered. -/
theorem C16_blocks_of_files (mb : Int) (del : Bool) (evs : List QEvent) (s : QSys) (hl : ListFirst evs)
    (h1 : (installedLists evs).length ≤ 1) (h : qRun (QSys.init mb del) evs = .ok s) :
    BlocksOf mb (firstOfName (installedLists evs).flatten) (discoveredFiles evs)
      ((s.created.filter fun x => !isDeletion x).map fun x => (x.name, x.offset, x.size)) := by
  obtain ⟨r, _⟩ := final_finv mb del evs s hl h1 h
  have := r.blocks
  rw [r.prev_eq] at this
  exact this

/-- So for a file the receiver does not have, each byte of it is in a block that
is (somewhere) in the system. -/
theorem C16_every_byte_somewhere (mb : Int) (del : Bool) (evs : List QEvent) (s : QSys) (hl : ListFirst evs)
    (h1 : (installedLists evs).length ≤ 1) (h : qRun (QSys.init mb del) evs = .ok s) (f : FileRec)
    (hf : f ∈ discoveredFiles evs) (hnew : ∀ i ∈ (installedLists evs).flatten, i.fileName ≠ f.name)
    (p : Int) (hp0 : 0 ≤ p) (hp : p < f.size) :
    ∃ b ∈ s.created, b.name = f.name ∧ b.offset ≤ p ∧ p < b.offset + b.size ∧
      ∃ x ∈ s.everywhere, x.key = b.key := by
  have hb := C16_blocks_of_files mb del evs s hl h1 h
  have hnone : lookupPrev (firstOfName (installedLists evs).flatten) f.name = none := by
    have hsub : ∀ (l m : List FileChunksInfo), ∀ i ∈ l.foldl insertPrev m, i ∈ l ∨ i ∈ m := by
      intro l
      induction l with
      | nil => intro m i hi; exact Or.inr hi
      | cons a as ih =>
        intro m i hi
        rw [List.foldl_cons] at hi
        rcases ih _ i hi with hh | hh
        · exact Or.inl (by simp [hh])
        · unfold insertPrev at hh
          split at hh
          · exact Or.inr hh
          · rcases List.mem_append.1 hh with hh | hh
            · exact Or.inr hh
            · rw [List.mem_singleton] at hh; exact Or.inl (by simp [hh])
    unfold lookupPrev
    rw [List.find?_eq_none]
    intro i hi
    unfold firstOfName at hi
    rcases hsub _ _ i hi with hh | hh
    · simpa using hnew i hh
    · cases hh
  have key : ∀ (fs : List FileRec) (l : List (Bytes × Int × Int)),
      BlocksOf mb (firstOfName (installedLists evs).flatten) fs l → f ∈ fs →
      ∃ t ∈ l, t.1 = f.name ∧ t.2.1 ≤ p ∧ p < t.2.1 + t.2.2 := by
    intro fs l hbl
    induction hbl with
    | nil => intro hm; cases hm
    | @cons g gs l bl next fuel hg _ ih =>
      intro hm
      rcases List.mem_cons.1 hm with rfl | hm
      · rw [hnone] at hg
        obtain ⟨fuel', bl', e1, e2, _⟩ := C15_fresh_file mb none f.size next (by omega) (by simp)
        -- the outcome does not depend on the amount of fuel
        have hsame : bl = bl' := by
          have mono : ∀ (bs : Int) (rs : List Interval) (f1 f2 : Nat) (a b : List Block),
              tileAll bs f1 rs = some a → tileAll bs f2 rs = some b → a = b := by
            intro bs rs
            induction rs with
            | nil => intro f1 f2 a b ha hb; simp [tileAll] at ha hb; rw [ha, hb]
            | cons r rs ihr =>
              intro f1 f2 a b ha hb
              simp only [tileAll] at ha hb
              split at ha
              · rename_i x1 x2 hx1 hx2
                split at hb
                · rename_i y1 y2 hy1 hy2
                  simp only [Option.some.injEq] at ha hb
                  rw [← ha, ← hb, ihr f1 f2 x2 y2 hx2 hy2]
                  have u1 := tileLoop_mono _ _ _ _ _ hx1 (max f1 f2) (Nat.le_max_left _ _)
                  have u2 := tileLoop_mono _ _ _ _ _ hy1 (max f1 f2) (Nat.le_max_right _ _)
                  rw [u1] at u2
                  simp only [Option.some.injEq] at u2
                  rw [u2]
                · simp at hb
              · simp at ha
          unfold fileBlocks at hg e1
          split at hg
          · simp at hg
          · rename_i hpl
            rw [hpl] at e1
            simp only [Except.ok.injEq, Option.some.injEq] at hg e1
            rw [← hg, ← e1]
          · rename_i pl hpl
            rw [hpl] at e1
            simp only [Except.ok.injEq] at hg e1
            exact mono _ _ _ _ _ _ hg e1
        subst hsame
        obtain ⟨b, hb1, hb2⟩ := (e2 p).2 ⟨hp0, hp⟩
        exact ⟨(f.name, b.offset, b.size), List.mem_append.2 (Or.inl (List.mem_map.2 ⟨b, hb1, rfl⟩)), rfl, hb2⟩
      · obtain ⟨t, ht, ht2⟩ := ih hm
        exact ⟨t, List.mem_append.2 (Or.inr ht), ht2⟩
  obtain ⟨t, ht, ht1, ht2⟩ := key _ _ hb hf
  rw [List.mem_map] at ht
  obtain ⟨b, hbm, rfl⟩ := ht
  have hbc := (List.mem_filter.1 hbm).1
  refine ⟨b, hbc, ht1, ht2.1, ht2.2, ?_⟩
  have hperm := C16_conservation mb del evs s hl h
  have : b.key ∈ s.everywhere.map Source.key := hperm.mem_iff.2 (List.mem_map.2 ⟨b, hbc, rfl⟩)
  rw [List.mem_map] at this
  exact this

/-! ## C29 -/

/-- With deletion on, once discovery finished and the receiver's list is known,
the files to be deleted are exactly those the receiver reported and the sender did
not discover, each once, whatever the order of events. -/
theorem C29_deletions_exact (mb : Int) (evs : List QEvent) (s : QSys) (hl : ListFirst evs)
    (infos : List FileChunksInfo) (h1 : installedLists evs = [infos])
    (hfin : discoveryFinished evs = true) (h : qRun (QSys.init mb true) evs = .ok s) :
    (∀ name : Bytes, (∃ x ∈ s.created, isDeletion x = true ∧ x.name = name) ↔
      ((∃ i ∈ infos, i.fileName = name) ∧ ∀ f ∈ discoveredFiles evs, f.name ≠ name)) ∧
    ((s.created.filter isDeletion).map Source.name).Nodup := by
  obtain ⟨r, hin⟩ := final_finv mb true evs s hl (by rw [h1]; simp) h
  have hd := r.dels
  rw [hin, hfin] at hd
  simp only [Bool.and_self, if_true] at hd
  have hpe := r.prev_eq
  rw [h1] at hpe
  simp only [List.flatten_cons, List.flatten_nil, List.append_nil] at hpe
  -- names kept are exactly the reported names, once each
  have hfold : ∀ (l m : List FileChunksInfo), (m.map FileChunksInfo.fileName).Nodup →
      ((l.foldl insertPrev m).map FileChunksInfo.fileName).Nodup ∧
      ∀ n, (∃ i ∈ l.foldl insertPrev m, i.fileName = n) ↔ ((∃ i ∈ m, i.fileName = n) ∨ ∃ i ∈ l, i.fileName = n) := by
    intro l
    induction l with
    | nil => intro m hm; exact ⟨hm, fun n => by simp⟩
    | cons a as ih =>
      intro m hm
      rw [List.foldl_cons]
      have hins : ((insertPrev m a).map FileChunksInfo.fileName).Nodup ∧
          ∀ n, (∃ i ∈ insertPrev m a, i.fileName = n) ↔ ((∃ i ∈ m, i.fileName = n) ∨ a.fileName = n) := by
        unfold insertPrev
        cases hlk : lookupPrev m a.fileName with
        | some i =>
          simp only [Option.isSome_some, if_true]
          refine ⟨hm, fun n => ⟨Or.inl, ?_⟩⟩
          rintro (hh | hh)
          · exact hh
          · unfold lookupPrev at hlk
            have := List.find?_some hlk
            have hmem := List.mem_of_find?_eq_some hlk
            simp only [decide_eq_true_eq] at this
            exact ⟨i, hmem, by rw [this, hh]⟩
        | none =>
          simp only [Option.isSome_none, Bool.false_eq_true, if_false]
          unfold lookupPrev at hlk
          rw [List.find?_eq_none] at hlk
          refine ⟨?_, fun n => ?_⟩
          · rw [List.map_append, List.nodup_append]
            refine ⟨hm, by simp, ?_⟩
            intro x hx y hy hxy
            rw [List.mem_map] at hx
            obtain ⟨i, hi, rfl⟩ := hx
            simp only [List.map_cons, List.map_nil, List.mem_singleton] at hy
            have := hlk i hi
            simp only [decide_eq_true_eq] at this
            exact this (by rw [hxy, hy])
          · simp only [List.mem_append, List.mem_singleton]
            constructor
            · rintro ⟨i, hi | rfl, hi2⟩
              · exact Or.inl ⟨i, hi, hi2⟩
              · exact Or.inr hi2
            · rintro (⟨i, hi, hi2⟩ | hh)
              · exact ⟨i, Or.inl hi, hi2⟩
              · exact ⟨a, Or.inr rfl, hh⟩
      obtain ⟨k1, k2⟩ := ih _ hins.1
      refine ⟨k1, fun n => ?_⟩
      rw [k2 n, hins.2 n]
      constructor
      · rintro ((hh | hh) | ⟨i, hi, hi2⟩)
        · exact Or.inl hh
        · exact Or.inr ⟨a, by simp, hh⟩
        · exact Or.inr ⟨i, by simp [hi], hi2⟩
      · rintro (hh | ⟨i, hi, hi2⟩)
        · exact Or.inl (Or.inl hh)
        · rcases List.mem_cons.1 hi with rfl | hi
          · exact Or.inl (Or.inr hi2)
          · exact Or.inr ⟨i, hi, hi2⟩
  obtain ⟨k1, k2⟩ := hfold infos [] (by simp)
  constructor
  · intro name
    constructor
    · rintro ⟨x, hx, hx2, hx3⟩
      have : x ∈ s.created.filter isDeletion := List.mem_filter.2 ⟨hx, hx2⟩
      rw [hd, List.mem_map] at this
      obtain ⟨i, hi, rfl⟩ := this
      unfold toDelete at hi
      rw [List.mem_filter] at hi
      obtain ⟨hi1, hi2⟩ := hi
      rw [hpe] at hi1
      have hn := (k2 name).1 ⟨i, hi1, hx3⟩
      refine ⟨?_, ?_⟩
      · rcases hn with ⟨j, hj, _⟩ | hn
        · cases hj
        · exact hn
      · intro f hf hfn
        simp only [Bool.not_eq_true', List.any_eq_false, decide_eq_true_eq] at hi2
        exact hi2 f hf (by rw [hfn, ← hx3]; rfl)
    · rintro ⟨hi, hnf⟩
      obtain ⟨i, hi1, hi2⟩ := (k2 name).2 (Or.inr hi)
      have : deletionSource i ∈ s.created.filter isDeletion := by
        rw [hd]
        refine List.mem_map.2 ⟨i, ?_, rfl⟩
        unfold toDelete
        rw [List.mem_filter]
        refine ⟨by rw [hpe]; exact hi1, ?_⟩
        simp only [Bool.not_eq_true', List.any_eq_false, decide_eq_true_eq]
        intro f hf
        rw [hi2]; exact hnf f hf
      exact ⟨_, (List.mem_filter.1 this).1, rfl, hi2⟩
  · rw [hd]
    have e : ((toDelete s.q.prev (discoveredFiles evs)).map deletionSource).map Source.name =
        (toDelete s.q.prev (discoveredFiles evs)).map FileChunksInfo.fileName := by
      rw [List.map_map]; rfl
    rw [e]
    have hs : List.Sublist (toDelete s.q.prev (discoveredFiles evs)) s.q.prev := List.filter_sublist
    refine List.Nodup.sublist (hs.map _) ?_
    rw [hpe]; exact k1

/-- With deletion off nothing is ever deleted; and nothing is deleted before
discovery has finished. -/
theorem C29_no_deletion (mb : Int) (del : Bool) (evs : List QEvent) (s : QSys) (hl : ListFirst evs)
    (h1 : (installedLists evs).length ≤ 1) (h : qRun (QSys.init mb del) evs = .ok s)
    (hoff : del = false ∨ discoveryFinished evs = false) : ∀ x ∈ s.created, isDeletion x = false := by
  obtain ⟨r, hin⟩ := final_finv mb del evs s hl h1 h
  have hd := r.dels
  rw [hin] at hd
  have : (del && discoveryFinished evs) = false := by rcases hoff with h | h <;> simp [h]
  rw [this] at hd
  simp only [Bool.false_eq_true, if_false, List.map_nil, List.filter_eq_nil_iff] at hd
  intro x hx
  simpa using hd x hx

example : ∃ evs s, ListFirst evs ∧ qRun (QSys.init 0 true) evs = .ok s ∧
    installedLists evs = [[⟨7, [98], 9, []⟩, ⟨3, [97], 2, []⟩]] ∧ discoveryFinished evs = true ∧
    s.created.map Source.name = [[97], [98]] := by
  refine ⟨[.discover ⟨[97], 3⟩, .setPrev [⟨7, [98], 9, []⟩, ⟨3, [97], 2, []⟩], .finishDiscovery], _, ?_, rfl,
    rfl, rfl, rfl⟩
  unfold ListFirst
  simp [QEvent.isPop, QEvent.isSetPrev]

/-! ## C51: sequence ids -/

structure SeqOK (q : QState) (c : List Source) : Prop where
  bound : ∀ a ∈ c, a.seqId < q.nextSeqId
  prevBound : ∀ i ∈ q.prev, i.seqId < q.nextSeqId
  origin : ∀ a ∈ c, (∃ i ∈ q.prev, i.fileName = a.name ∧ i.seqId = a.seqId) ∨ ∀ i ∈ q.prev, i.seqId ≠ a.seqId
  inj : ∀ a ∈ c, ∀ b ∈ c, a.seqId = b.seqId → a.name = b.name

/-- Ids in a list identify names. -/
def DistinctIds (l : List FileChunksInfo) : Prop := ∀ i ∈ l, ∀ j ∈ l, i.seqId = j.seqId → i.fileName = j.fileName

theorem SeqOK.create {q q' : QState} {c new : List Source} {f : FileRec} (h : SeqOK q c)
    (hd : DistinctIds q.prev) (hc : createInternal q f = .ok (q', new)) : SeqOK q' (c ++ new) := by
  obtain ⟨_, _, _, _, a5, _, _, _, _, a11, a12, a13⟩ := createInternal_ok _ _ _ _ hc
  have hname : ∀ s ∈ new, s.name = f.name := fun s hs => (a11 s hs).1
  rcases a13 with ⟨i, hi, hs, hn⟩ | ⟨hs, hn⟩
  · -- id taken from the receiver's list
    have himem : i ∈ q.prev := List.mem_of_find?_eq_some hi
    have hiname : i.fileName = f.name := by
      have := List.find?_some hi
      simpa using this
    refine ⟨?_, ?_, ?_, ?_⟩
    · intro a ha
      rw [hn]
      rcases List.mem_append.1 ha with ha | ha
      · exact h.bound a ha
      · rw [hs a ha]; exact h.prevBound i himem
    · rw [a5, hn]; exact h.prevBound
    · intro a ha
      rw [a5]
      rcases List.mem_append.1 ha with ha | ha
      · exact h.origin a ha
      · exact Or.inl ⟨i, himem, by rw [hiname, hname a ha], (hs a ha).symm⟩
    · have cross : ∀ a ∈ c, ∀ b ∈ new, a.seqId = b.seqId → a.name = b.name := by
        intro a ha b hb hab
        rw [hs b hb] at hab
        rcases h.origin a ha with ⟨j, hj, hj1, hj2⟩ | hno
        · rw [← hj1, hname b hb, ← hiname]
          exact hd j hj i himem (by rw [hj2, hab])
        · exact absurd hab.symm (hno i himem)
      intro a ha b hb hab
      rcases List.mem_append.1 ha with ha | ha <;> rcases List.mem_append.1 hb with hb | hb
      · exact h.inj a ha b hb hab
      · exact cross a ha b hb hab
      · exact (cross b hb a ha hab.symm).symm
      · rw [hname a ha, hname b hb]
  · -- fresh id
    refine ⟨?_, ?_, ?_, ?_⟩
    · intro a ha
      rw [hn]
      rcases List.mem_append.1 ha with ha | ha
      · have := h.bound a ha; omega
      · rw [hs a ha]; omega
    · rw [a5, hn]
      intro i hi
      have := h.prevBound i hi; omega
    · intro a ha
      rw [a5]
      rcases List.mem_append.1 ha with ha | ha
      · exact h.origin a ha
      · refine Or.inr fun i hi => ?_
        have := h.prevBound i hi
        rw [hs a ha]; omega
    · intro a ha b hb hab
      rcases List.mem_append.1 ha with ha | ha <;> rcases List.mem_append.1 hb with hb | hb
      · exact h.inj a ha b hb hab
      · have := h.bound a ha
        rw [hs b hb] at hab; omega
      · have := h.bound b hb
        rw [hs a ha] at hab; omega
      · rw [hname a ha, hname b hb]

theorem SeqOK.recreate (fs : List FileRec) : ∀ {q q' : QState} {c new : List Source}, SeqOK q c →
    DistinctIds q.prev → recreateLoop q fs = .ok (q', new) → SeqOK q' (c ++ new) := by
  induction fs with
  | nil =>
    intro q q' c new h _ hr
    simp only [recreateLoop, Except.ok.injEq, Prod.mk.injEq] at hr
    obtain ⟨rfl, rfl⟩ := hr
    simpa using h
  | cons f fs ih =>
    intro q q' c new h hd hr
    unfold recreateLoop at hr
    split at hr
    · simp at hr
    · rename_i q1 s1 h1
      split at hr
      · simp at hr
      · rename_i q2 s2 h2
        simp only [Except.ok.injEq, Prod.mk.injEq] at hr
        obtain ⟨rfl, rfl⟩ := hr
        obtain ⟨_, _, _, _, a5, _⟩ := createInternal_ok _ _ _ _ h1
        rw [← List.append_assoc]
        exact ih (h.create hd h1) (by rw [a5]; exact hd) h2

theorem SeqOK.deletions {q : QState} {c : List Source} (h : SeqOK q c) (hd : DistinctIds q.prev) :
    SeqOK (enqueueDeletions q).1 (c ++ (enqueueDeletions q).2) := by
  obtain ⟨extra, c1, c2, c3, c4, c5, c6, c7, c8, c9, c10, c11⟩ := enqueueDeletions_ok q
  have hsub : ∀ i ∈ extra, i ∈ q.prev := by
    intro i hi
    rw [c11] at hi
    split at hi
    · exact (List.mem_filter.1 hi).1
    · cases hi
  have hnew : ∀ s ∈ extra.map deletionSource, ∃ i ∈ q.prev, i.fileName = s.name ∧ i.seqId = s.seqId := by
    intro s hs
    rw [List.mem_map] at hs
    obtain ⟨i, hi, rfl⟩ := hs
    exact ⟨i, hsub i hi, rfl, rfl⟩
  rw [c1]
  refine ⟨?_, ?_, ?_, ?_⟩
  · intro a ha
    rw [c9]
    rcases List.mem_append.1 ha with ha | ha
    · exact h.bound a ha
    · obtain ⟨i, hi, _, h2⟩ := hnew a ha
      rw [← h2]; exact h.prevBound i hi
  · rw [c5, c9]; exact h.prevBound
  · intro a ha
    rw [c5]
    rcases List.mem_append.1 ha with ha | ha
    · exact h.origin a ha
    · exact Or.inl (hnew a ha)
  · have cross : ∀ a ∈ c, ∀ b ∈ extra.map deletionSource, a.seqId = b.seqId → a.name = b.name := by
      intro a ha b hb hab
      obtain ⟨i, hi, hi1, hi2⟩ := hnew b hb
      rcases h.origin a ha with ⟨j, hj, hj1, hj2⟩ | hno
      · rw [← hj1, ← hi1]
        exact hd j hj i hi (by rw [hj2, hab, hi2])
      · exact absurd (by rw [hi2, hab]) (hno i hi)
    intro a ha b hb hab
    rcases List.mem_append.1 ha with ha | ha <;> rcases List.mem_append.1 hb with hb | hb
    · exact h.inj a ha b hb hab
    · exact cross a ha b hb hab
    · exact (cross b hb a ha hab.symm).symm
    · obtain ⟨i, hi, hi1, hi2⟩ := hnew a ha
      obtain ⟨j, hj, hj1, hj2⟩ := hnew b hb
      rw [← hi1, ← hj1]
      exact hd i hi j hj (by rw [hi2, hj2, hab])

theorem foldl_max_ge (l : List FileChunksInfo) : ∀ n : Int,
    n ≤ l.foldl (fun n i => max n (i.seqId + 1)) n ∧
    ∀ i ∈ l, i.seqId < l.foldl (fun n i => max n (i.seqId + 1)) n := by
  induction l with
  | nil => intro n; exact ⟨Int.le_refl _, by intro i hi; cases hi⟩
  | cons a as ih =>
    intro n
    rw [List.foldl_cons]
    obtain ⟨h1, h2⟩ := ih (max n (a.seqId + 1))
    refine ⟨by omega, ?_⟩
    intro i hi
    rcases List.mem_cons.1 hi with rfl | hi
    · omega
    · exact h2 i hi

theorem insertPrev_sub (l : List FileChunksInfo) : ∀ (m : List FileChunksInfo),
    ∀ i ∈ l.foldl insertPrev m, i ∈ l ∨ i ∈ m := by
  induction l with
  | nil => intro m i hi; exact Or.inr hi
  | cons a as ih =>
    intro m i hi
    rw [List.foldl_cons] at hi
    rcases ih _ i hi with hh | hh
    · exact Or.inl (by simp [hh])
    · unfold insertPrev at hh
      split at hh
      · exact Or.inr hh
      · rcases List.mem_append.1 hh with hh | hh
        · exact Or.inr hh
        · rw [List.mem_singleton] at hh; exact Or.inl (by simp [hh])

theorem qRun_seq (evs : List QEvent) : ∀ (s s' : QSys), SeqOK s.q s.created → DistinctIds s.q.prev →
    (s.q.prev = [] ∨ installedLists evs = []) → (installedLists evs).length ≤ 1 →
    (∀ l ∈ installedLists evs, DistinctIds l) → QInv s → ListFirst evs →
    (∀ e ∈ evs, e.isSetPrev = true → QFresh s) → qRun s evs = .ok s' → SeqOK s'.q s'.created := by
  induction evs with
  | nil =>
    intro s s' h _ _ _ _ _ _ _ hr
    simp only [qRun, Res.ok.injEq] at hr
    subst hr; exact h
  | cons e evs ih =>
    intro s s' h hd hone hlen hdl hi hl hset hr
    unfold qRun at hr
    split at hr
    · rename_i s1 h1
      obtain ⟨i1, i2⟩ := qStep_inv s e s1 hi (fun he => hset e (by simp) he) h1
      unfold ListFirst at hl
      rw [List.pairwise_cons] at hl
      have hset1 : ∀ e' ∈ evs, e'.isSetPrev = true → QFresh s1 := by
        intro e' he' hs'
        refine i2 (hset e' (by simp [he']) hs') ?_
        cases hpop : e.isPop with
        | false => rfl
        | true => exact absurd ⟨hpop, hs'⟩ (hl.1 e' he')
      have frame : (∀ f, e ≠ .discover f) → e ≠ .finishDiscovery → (∀ l, e ≠ .setPrev l) →
          SeqOK s'.q s'.created := by
        intro n1 n2 n3
        obtain ⟨e1, e2, e3, e4, e5, e6, e7⟩ := qStep_frame s e s1 hi h1 n1 n2 n3
        have hil : installedLists (e :: evs) = installedLists evs := by
          cases e <;> first | rfl | exact absurd rfl (n3 _)
        rw [hil] at hone hlen hdl
        refine ih s1 s' ⟨?_, ?_, ?_, ?_⟩ (by rw [e3]; exact hd) (by rw [e3]; exact hone) hlen hdl i1 hl.2 hset1 hr
        · rw [e4, e7]; exact h.bound
        · rw [e3, e7]; exact h.prevBound
        · rw [e4, e3]; exact h.origin
        · rw [e4]; exact h.inj
      cases e with
      | discover f =>
        simp only [qStep] at h1
        split at h1
        · simp at h1
        · split at h1
          · simp at h1
          · rename_i q new hq
            simp only [Res.ok.injEq] at h1
            subst h1
            unfold discoverFile at hq
            have hs0 : SeqOK { s.q with shared := s.q.shared ++ [f] } s.created :=
              ⟨h.bound, h.prevBound, h.origin, h.inj⟩
            obtain ⟨_, _, _, _, a5, _⟩ := createInternal_ok _ _ _ _ hq
            simp only [installedLists] at hone hlen hdl
            exact ih _ s' (hs0.create hd hq) (by simp only [a5]; exact hd) (by simp only [a5]; exact hone)
              hlen hdl i1 hl.2 hset1 hr
      | finishDiscovery =>
        simp only [qStep] at h1
        split at h1
        · simp at h1
        · simp only [Res.ok.injEq] at h1
          subst h1
          have hs0 : SeqOK { s.q with initFinished := true } s.created :=
            ⟨h.bound, h.prevBound, h.origin, h.inj⟩
          obtain ⟨_, _, _, _, _, c5, _⟩ := enqueueDeletions_ok { s.q with initFinished := true }
          simp only [installedLists] at hone hlen hdl
          refine ih _ s' (hs0.deletions hd) ?_ ?_ hlen hdl i1 hl.2 hset1 hr
          · unfold finishDiscovery; simp only [c5]; exact hd
          · unfold finishDiscovery; simp only [c5]; exact hone
      | setPrev infos =>
        simp only [installedLists, List.length_cons] at hone hlen hdl
        have hp0 : s.q.prev = [] := by
          rcases hone with hh | hh
          · exact hh
          · simp at hh
        have hno : installedLists evs = [] := List.eq_nil_of_length_eq_zero (by omega)
        simp only [qStep] at h1
        split at h1
        · simp at h1
        · rename_i q new hq
          simp only [Res.ok.injEq] at h1
          subst h1
          have hq' := setPrev_ok _ _ _ _ hq
          have hdi : DistinctIds infos := hdl infos (by simp)
          have hdp : DistinctIds (infos.foldl insertPrev s.q.prev) := by
            rw [hp0]
            intro i hi j hj
            have hi' : i ∈ infos := by
              rcases insertPrev_sub infos [] i hi with hh | hh
              · exact hh
              · cases hh
            have hj' : j ∈ infos := by
              rcases insertPrev_sub infos [] j hj with hh | hh
              · exact hh
              · cases hh
            exact hdi i hi' j hj'
          have hseq : SeqOK q new := by
            unfold setPrev at hq
            split at hq
            · simp at hq
            · simp only at hq
              split at hq
              · simp at hq
              · rename_i q2 s2 h2
                simp only [Except.ok.injEq, Prod.mk.injEq] at hq
                obtain ⟨rfl, rfl⟩ := hq
                have base : SeqOK
                    { s.q with
                      nextSeqId := infos.foldl (fun n i => max n (i.seqId + 1)) 0
                      totalFileSize := 0
                      numEntries := 0
                      numBlocks := 0
                      prev := infos.foldl insertPrev s.q.prev
                      queue := [] } [] := by
                  refine ⟨by simp, ?_, by simp, by simp⟩
                  intro i hi
                  simp only [hp0] at hi
                  rcases insertPrev_sub infos [] i hi with hh | hh
                  · exact (foldl_max_ge infos 0).2 i hh
                  · cases hh
                obtain ⟨_, _, _, _, b5, _⟩ := recreateLoop_ok _ _ _ _ h2
                have := SeqOK.recreate _ base hdp h2
                rw [List.nil_append] at this
                exact this.deletions (by rw [b5]; exact hdp)
          refine ih _ s' hseq ?_ (Or.inr hno) (by rw [hno]; simp) (by rw [hno]; simp) i1 hl.2 hset1 hr
          simp only [hq'.2.2.2.2.1]
          exact hdp
      | pop x => exact frame (by simp) (by simp) (by simp)
      | openOk x => exact frame (by simp) (by simp) (by simp)
      | openFail x => exact frame (by simp) (by simp) (by simp)
      | giveBack l => exact frame (by simp) (by simp) (by simp)
      | ack x => exact frame (by simp) (by simp) (by simp)
    · simp at hr
    · simp at hr

/-- Blocks of differently named files never carry the same sequence id, provided
the receiver's list gives different files different ids. -/
theorem C51_sequence_ids_distinct (mb : Int) (del : Bool) (evs : List QEvent) (s : QSys) (hl : ListFirst evs)
    (h1 : (installedLists evs).length ≤ 1) (hd : ∀ l ∈ installedLists evs, DistinctIds l)
    (h : qRun (QSys.init mb del) evs = .ok s) :
    ∀ a ∈ s.created, ∀ b ∈ s.created, a.seqId = b.seqId → a.name = b.name :=
  (qRun_seq evs _ s ⟨by simp [QSys.init], by simp [QSys.init], by simp [QSys.init], by simp [QSys.init]⟩
    (by intro i hi; simp [QSys.init] at hi) (Or.inl rfl) h1 hd (QInv.init mb del) hl
    (fun _ _ _ => ⟨rfl, rfl, rfl, rfl⟩) h).inj

example : DistinctIds [⟨7, [98], 9, []⟩, ⟨3, [97], 2, []⟩] := by unfold DistinctIds; decide

/-- The hypothesis is needed: a list that repeats an id makes two files share it. -/
theorem C51_needs_distinct_ids :
    ∃ evs s, ListFirst evs ∧ qRun (QSys.init 0 false) evs = .ok s ∧
      ∃ a ∈ s.created, ∃ b ∈ s.created, a.seqId = b.seqId ∧ a.name ≠ b.name := by
  refine ⟨[.discover ⟨[97], 3⟩, .discover ⟨[98], 3⟩, .setPrev [⟨7, [98], 3, []⟩, ⟨7, [97], 2, []⟩]], _, ?_, rfl, ?_⟩
  · unfold ListFirst
    simp [QEvent.isPop, QEvent.isSetPrev]
  · refine ⟨{ name := [97], seqId := 7, fileSize := 3, status := 3, offset := 0, size := 3 }, ?_,
      { name := [98], seqId := 7, fileSize := 3, status := 1, offset := 0, size := 3 }, ?_, rfl, by decide⟩
    · decide +kernel
    · decide +kernel

/-- A deletion carries no data, and the sequence id the receiver gave for the file. -/
theorem C29_deletions_empty (mb : Int) (evs : List QEvent) (s : QSys) (hl : ListFirst evs)
    (infos : List FileChunksInfo) (h1 : installedLists evs = [infos]) (h : qRun (QSys.init mb true) evs = .ok s) :
    ∀ x ∈ s.created, isDeletion x = true → x.fileSize = 0 ∧ x.offset = 0 ∧ x.size = 0 ∧
      ∃ i ∈ infos, i.fileName = x.name ∧ i.seqId = x.seqId := by
  obtain ⟨r, -⟩ := final_finv mb true evs s hl (by rw [h1]; simp) h
  intro x hx hd
  have hm : x ∈ s.created.filter isDeletion := List.mem_filter.2 ⟨hx, hd⟩
  rw [r.dels] at hm
  obtain ⟨i, hi, rfl⟩ := List.mem_map.1 hm
  refine ⟨rfl, rfl, rfl, i, ?_, rfl, rfl⟩
  have hp : i ∈ s.q.prev := by
    split at hi
    · exact (List.mem_filter.1 hi).1
    · cases hi
  have hpe := r.prev_eq
  rw [h1] at hpe
  simp only [List.flatten_cons, List.flatten_nil, List.append_nil] at hpe
  rw [hpe] at hp
  exact (insertPrev_sub _ _ _ hp).resolve_right (by simp)

end Wdt
