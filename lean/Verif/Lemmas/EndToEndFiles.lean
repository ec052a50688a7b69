import Verif.Lemmas.EndToEndRun
import Verif.Props.QueueFiles
/-
Which blocks a transfer creates: the same ones as its discovery alone.
-/
namespace Wdt

/-- The part of the queue that discovery works with. -/
def QState.core (q : QState) : QState := { q with queue := [], failed := [], deq := 0 }

theorem core_fields {q r : QState} (h : q.core = r.core) : q.blockMb = r.blockMb ∧ q.deleteFiles = r.deleteFiles ∧
    q.initFinished = r.initFinished ∧ q.shared = r.shared ∧ q.prev = r.prev ∧ q.nextSeqId = r.nextSeqId ∧
    q.numEntries = r.numEntries ∧ q.numBlocks = r.numBlocks ∧ q.totalFileSize = r.totalFileSize ∧
    q.previouslySent = r.previouslySent := by
  simpa [QState.core] using h

theorem createInternal_core {q r q' : QState} {f : FileRec} {l : List Source} (hc : q.core = r.core)
    (h : createInternal q f = .ok (q', l)) : ∃ r', createInternal r f = .ok (r', l) ∧ q'.core = r'.core ∧ r'.deq = r.deq := by
  obtain ⟨h1, h2, h3, h4, h5, h6, h7, h8, h9, h10⟩ := core_fields hc
  unfold createInternal at h ⊢
  rw [← h1, ← h5, ← h6]
  split at h
  · cases h
  · cases h
    exact ⟨_, rfl, by simp [QState.core, h1, h2, h3, h4, h5, h6, h7, h8, h9, h10], rfl⟩
  · rename_i p hp
    split at h
    · cases h
    · rename_i bl hbl
      cases h
      exact ⟨_, rfl, by simp [QState.core, h1, h2, h3, h4, h5, h7, h8, h9, h10], rfl⟩

theorem recreateLoop_core : ∀ (fs : List FileRec) {q r q' : QState} {l : List Source}, q.core = r.core →
    recreateLoop q fs = .ok (q', l) → ∃ r', recreateLoop r fs = .ok (r', l) ∧ q'.core = r'.core ∧ r'.deq = r.deq := by
  intro fs
  induction fs with
  | nil => intro q r q' l hc h; simp only [recreateLoop] at h ⊢; cases h; exact ⟨r, rfl, hc, rfl⟩
  | cons f fs ih =>
    intro q r q' l hc h
    simp only [recreateLoop] at h ⊢
    split at h
    · cases h
    · rename_i q1 s1 h1
      obtain ⟨r1, e1, c1, d1⟩ := createInternal_core hc h1
      split at h
      · cases h
      · rename_i q2 s2 h2
        obtain ⟨r2, e2, c2, d2⟩ := ih c1 h2
        cases h
        rw [e1]; simp only; rw [e2]
        exact ⟨r2, rfl, c2, d2.trans d1⟩

theorem enqueueDeletions_core {q r : QState} (hc : q.core = r.core) :
    (enqueueDeletions r).2 = (enqueueDeletions q).2 ∧ (enqueueDeletions q).1.core = (enqueueDeletions r).1.core ∧
    (enqueueDeletions r).1.deq = r.deq := by
  obtain ⟨h1, h2, h3, h4, h5, h6, h7, h8, h9, h10⟩ := core_fields hc
  unfold enqueueDeletions
  rw [← h2, ← h3, ← h4, ← h5]
  split
  · exact ⟨rfl, hc, rfl⟩
  · split
    · exact ⟨rfl, hc, rfl⟩
    · exact ⟨rfl, by simp [QState.core, h1, h2, h3, h4, h5, h6, h7, h8, h9, h10], rfl⟩

theorem setPrev_core {q r q' : QState} {infos : List FileChunksInfo} {l : List Source} (hc : q.core = r.core) (hd : r.deq = 0)
    (h : setPrev q infos = .ok (q', l)) : ∃ r', setPrev r infos = .ok (r', l) ∧ q'.core = r'.core ∧ r'.deq = 0 := by
  obtain ⟨h1, h2, h3, h4, h5, h6, h7, h8, h9, h10⟩ := core_fields hc
  unfold setPrev at h ⊢
  rw [if_neg (by simp [hd])]
  split at h
  · cases h
  · simp only at h ⊢
    rw [← h4]
    split at h
    · cases h
    · rename_i q2 s2 e
      obtain ⟨r2, e2, c2, d2⟩ := recreateLoop_core _ (r := { r with
        nextSeqId := infos.foldl (fun n i => max n (i.seqId + 1)) 0
        totalFileSize := 0
        numEntries := 0
        numBlocks := 0
        prev := infos.foldl insertPrev r.prev
        shared := q.shared
        queue := [] }) (by simp [QState.core, h1, h2, h3, h4, h5, h10]) e
      rw [e2]
      obtain ⟨d3, c3, b3⟩ := enqueueDeletions_core c2
      cases h
      refine ⟨_, by simp only [d3], c3, ?_⟩
      rw [b3, d2]; exact hd

/-- The step of the queue in a step of a transfer. -/
def EEvent.disc : EEvent → List QEvent
  | .s (.discover f) => [.discover f]
  | .s .finishDiscovery => [.finishDiscovery]
  | .s (.setPrev infos) => [.setPrev infos]
  | _ => []

/-- The discovery of a transfer, on its own. -/
def discOf (es : List EEvent) : List QEvent := es.flatMap EEvent.disc

/-- The transfer `S` has created what the queue `T` has. -/
structure Sim (S : ESys) (T : QSys) : Prop where
  created : T.created = S.snd.created
  core : S.snd.q.core = T.q.core
  deq : T.q.deq = 0

/-- The step leaves discovery alone. -/
def Quiet2 (s s' : SSys) : Prop := s'.created = s.created ∧ s'.q.core = s.q.core

theorem giveBack_quiet {s s' : SSys} {t : Nat} {th : SThread} {l : List (Source × Source)} (h : giveBack s t th l = .ok s') :
    Quiet2 s s' := by
  have hr : ∀ (l : List Source) (q q' : QState), returnToQueue q l = .ok q' → q'.core = q.core := by
    intro l
    induction l with
    | nil => intro q q' h; simp only [returnToQueue] at h; cases h; rfl
    | cons a l ih =>
      intro q q' h
      simp only [returnToQueue] at h
      split at h
      · rw [ih _ _ h]; rfl
      · cases h
  unfold giveBack at h
  split at h
  · cases h
  · rename_i q hq
    cases h
    exact ⟨rfl, hr _ _ _ hq⟩

theorem applyCp_quiet {s s' : SSys} {t : Nat} {th : SThread} {r : Except Fault (CpRes × Hist × List (Source × Source))}
    (h : applyCp s t th r = .ok s') : Quiet2 s s' := by
  unfold applyCp at h
  split at h
  · cases h
  · exact giveBack_quiet h

/-- Is it a step of discovery? -/
def SEvent.isDisc : SEvent → Bool
  | .discover _ | .finishDiscovery | .setPrev _ => true
  | _ => false

theorem sStep_quiet {s s' : SSys} {e : SEvent} (he : e.isDisc = false) (h : sStep s e = .ok s') : Quiet2 s s' := by
  cases e with
  | discover f => cases he
  | finishDiscovery => cases he
  | setPrev infos => cases he
  | pop t x =>
    obtain ⟨th, _, _, _, _, _, rfl⟩ := sStep_pop h
    exact ⟨rfl, rfl⟩
  | openOk t =>
    obtain ⟨th, x, _, _, _, rfl⟩ := sStep_openOk h
    exact ⟨rfl, rfl⟩
  | openFail t =>
    obtain ⟨th, x, _, _, _, rfl⟩ := sStep_openFail h
    exact ⟨rfl, rfl⟩
  | sent t o =>
    simp only [sStep] at h
    split at h
    · exact giveBack_quiet h
    · cases h
  | localCp t cp =>
    obtain ⟨th, hth, _, _, _, ha⟩ := sStep_localCp h
    exact applyCp_quiet ha
  | globalCp t cp =>
    simp only [sStep] at h
    split at h
    · exact applyCp_quiet h
    · cases h; exact ⟨rfl, rfl⟩
  | markAll t =>
    obtain ⟨th, hth, rfl⟩ := sStep_markAll h
    exact ⟨rfl, rfl⟩
  | returnUnacked t =>
    simp only [sStep] at h
    split at h
    · exact applyCp_quiet h
    · cases h
  | exit t =>
    obtain ⟨th, hth, _, ho, rfl⟩ := sStep_exit h
    exact ⟨rfl, rfl⟩

theorem eStepS_quiet {c : ECfg} {S S' : ESys} {e : SEv} (he : (EEvent.s e).disc = []) (h : eStepS c S e = some S') :
    Quiet2 S.snd S'.snd := by
  have q : ∀ {S1 S2 : ESys} {e : SEvent}, e.isDisc = false → S1.snd? e = some S2 → Quiet2 S1.snd S2.snd := by
    intro S1 S2 e he h
    obtain ⟨s', h1, rfl⟩ := snd?_some h
    exact sStep_quiet he h1
  cases e with
  | discover f => cases he
  | finishDiscovery => cases he
  | setPrev infos => cases he
  | sent t o =>
    simp only [eStepS] at h
    split at h
    · rename_i hh x _
      cases o with
      | ok k =>
        simp only at h
        by_cases hw : decide ((S.port t).wrote = some x.size) = true
        · rw [if_pos hw] at h; exact q (S1 := S.setP t _) rfl h
        · rw [if_neg hw] at h; cases h
      | fail k =>
        simp only [if_true] at h
        exact q (S1 := S.setP t _) rfl h
    · cases h
  | readCp t =>
    simp only [eStepS] at h
    split at h
    · exact q (S1 := S.setP t _) rfl h
    · cases h
  | pop t x =>
    simp only [eStepS] at h
    split at h
    · exact q (S1 := { S with began := true }) rfl h
    · cases h
  | global t =>
    simp only [eStepS] at h
    split at h
    · exact q (S1 := { S.setP t _ with refused := _ }) rfl h
    · cases h
  | _ =>
    simp only [eStepS] at h
    first
      | exact q rfl h
      | (repeat' split at h
         all_goals first
          | (cases h; done)
          | (cases h; exact ⟨rfl, rfl⟩)
          | exact q rfl h
          | exact q (S1 := S.setP _ _) rfl h)

theorem Sim.quiet {S S' : ESys} {T : QSys} (hs : Sim S T) (h : Quiet2 S.snd S'.snd) : Sim S' T :=
  ⟨hs.created.trans h.1.symm, h.2.trans hs.core, hs.deq⟩

theorem Sim.step {c : ECfg} {S S' : ESys} {T : QSys} {e : EEvent} (hs : Sim S T) (h : eStep c S e = some S') :
    ∃ T', qRun T e.disc = .ok T' ∧ Sim S' T' := by
  cases e with
  | v e =>
    have := (eStepR_frame h).snd
    exact ⟨T, rfl, hs.quiet (by rw [this]; exact ⟨rfl, rfl⟩)⟩
  | s e =>
    by_cases he : (EEvent.s e).disc = []
    · rw [he]; exact ⟨T, rfl, hs.quiet (eStepS_quiet he h)⟩
    have hif : S.snd.q.initFinished = T.q.initFinished := (core_fields hs.core).2.2.1
    cases e with
    | discover f =>
      obtain ⟨s', h1, rfl⟩ := snd?_some h
      simp only [sStep] at h1
      split at h1
      · cases h1
      · rename_i hni
        split at h1
        · cases h1
        · rename_i q new hq
          cases h1
          obtain ⟨h1', h2, h3, h4, h5, h6, h7, h8, h9, h10⟩ := core_fields hs.core
          obtain ⟨r', e1, e2, e3⟩ := createInternal_core (r := { T.q with shared := T.q.shared ++ [f] })
            (by simp [QState.core, h1', h2, h3, h4, h5, h6, h7, h8, h9, h10]) hq
          have e1' : discoverFile T.q f = .ok (r', new) := e1
          refine ⟨{ T with q := r', created := T.created ++ new }, ?_, ?_, e2, e3.trans hs.deq⟩
          · simp only [EEvent.disc, qRun, qStep]
            rw [if_neg (by rw [← hif]; exact hni), e1']
          · show T.created ++ new = S.snd.created ++ new
            rw [hs.created]
    | finishDiscovery =>
      obtain ⟨s', h1, rfl⟩ := snd?_some h
      simp only [sStep] at h1
      split at h1
      · cases h1
      · rename_i hni
        cases h1
        obtain ⟨h1', h2, h3, h4, h5, h6, h7, h8, h9, h10⟩ := core_fields hs.core
        obtain ⟨d3, c3, b3⟩ := enqueueDeletions_core (q := { S.snd.q with initFinished := true })
          (r := { T.q with initFinished := true }) (by simp [QState.core, h1', h2, h4, h5, h6, h7, h8, h9, h10])
        refine ⟨{ T with q := (finishDiscovery T.q).1, created := T.created ++ (finishDiscovery T.q).2 }, ?_, ?_, c3, b3.trans hs.deq⟩
        · simp only [EEvent.disc, qRun, qStep]
          rw [if_neg (by rw [← hif]; exact hni)]
        · show T.created ++ (finishDiscovery T.q).2 = S.snd.created ++ (finishDiscovery S.snd.q).2
          rw [hs.created]; exact congrArg _ d3
    | setPrev infos =>
      simp only [eStep, eStepS] at h
      split at h
      · cases h
      obtain ⟨s', h1, rfl⟩ := snd?_some h
      simp only [sStep] at h1
      split at h1
      · cases h1
      · rename_i q new hq
        cases h1
        obtain ⟨r', e1, e2, e3⟩ := setPrev_core hs.core hs.deq hq
        refine ⟨{ T with q := r', created := new }, ?_, rfl, e2, e3⟩
        simp only [EEvent.disc, qRun, qStep]
        rw [e1]
    | _ => exact absurd rfl he

theorem qRun_append' {es es' : List QEvent} : ∀ {T T' : QSys}, qRun T es = .ok T' → qRun T (es ++ es') = qRun T' es' := by
  induction es with
  | nil => intro T T' h; simp only [qRun] at h; cases h; rfl
  | cons e es ih =>
    intro T T' h
    simp only [qRun, List.cons_append] at h ⊢
    split at h
    · exact ih h
    · cases h
    · cases h

theorem Sim.run {c : ECfg} {es : List EEvent} : ∀ {S S' : ESys} {T : QSys}, Sim S T → eRun c S es = some S' →
    ∃ T', qRun T (discOf es) = .ok T' ∧ Sim S' T' := by
  induction es with
  | nil => intro S S' T hs h; cases h; exact ⟨T, rfl, hs⟩
  | cons e es ih =>
    intro S S' T hs h
    simp only [eRun] at h
    split at h
    · rename_i S1 h1
      obtain ⟨T1, a1, a2⟩ := hs.step h1
      obtain ⟨T2, b1, b2⟩ := ih a2 h
      refine ⟨T2, ?_, b2⟩
      simp only [discOf, List.flatMap_cons]
      rw [qRun_append' a1]; exact b1
    · cases h

theorem Sim.init (c : ECfg) (mb : Int) (del : Bool) : Sim (ESys.init c mb del) (QSys.init mb del) := ⟨rfl, rfl, rfl⟩

theorem discOf_listFirst (es : List EEvent) : ListFirst (discOf es) := by
  have hp : ∀ a ∈ discOf es, a.isPop = false := by
    intro a ha
    obtain ⟨e, -, he⟩ := List.mem_flatMap.1 ha
    unfold EEvent.disc at he
    split at he <;> simp at he <;> rw [he] <;> rfl
  unfold ListFirst
  refine List.pairwise_of_forall_mem_list fun a ha b _ hab => ?_
  rw [hp a ha] at hab; cases hab.1

/-- The header of a block says what the plan for its file says. -/
def Planned (D : List FileRec) (prev : List FileChunksInfo) (b : Source) : Prop :=
  b.status = TO_BE_DELETED ∨ (⟨b.name, b.fileSize⟩ : FileRec) ∈ D ∧
    ∃ next p, planFile (lookupPrev prev b.name) b.fileSize next = .ok (some p) ∧ b.status = p.status

theorem createInternal_planned {q q' : QState} {f : FileRec} {new : List Source} (h : createInternal q f = .ok (q', new)) :
    ∀ b ∈ new, b.name = f.name ∧ b.fileSize = f.size ∧
      ∃ next p, planFile (lookupPrev q.prev b.name) b.fileSize next = .ok (some p) ∧ b.status = p.status := by
  unfold createInternal at h
  split at h
  · cases h
  · cases h; simp
  · rename_i p hp
    split at h
    · cases h
    · cases h
      intro b hb
      obtain ⟨x, -, rfl⟩ := List.mem_map.1 hb
      exact ⟨rfl, rfl, _, p, hp, rfl⟩

theorem recreateLoop_planned (D : List FileRec) : ∀ (fs : List FileRec) {q q' : QState} {new : List Source}, (∀ f ∈ fs, f ∈ D) →
    recreateLoop q fs = .ok (q', new) → ∀ b ∈ new, Planned D q.prev b := by
  intro fs
  induction fs with
  | nil => intro q q' new _ h; simp only [recreateLoop] at h; cases h; simp
  | cons f fs ih =>
    intro q q' new hD h
    simp only [recreateLoop] at h
    split at h
    · cases h
    · rename_i q1 s1 h1
      split at h
      · cases h
      · rename_i q2 s2 h2
        cases h
        intro b hb
        rcases List.mem_append.1 hb with hb | hb
        · obtain ⟨e1, e2, e3⟩ := createInternal_planned h1 b hb
          refine .inr ⟨?_, e3⟩
          rw [e1, e2]; exact hD f (by simp)
        · have := ih (fun g hg => hD g (by simp [hg])) h2 b hb
          rwa [(createInternal_ok _ _ _ _ h1).2.2.2.2.1] at this

theorem enqueueDeletions_planned (q : QState) (D : List FileRec) (prev : List FileChunksInfo) :
    ∀ b ∈ (enqueueDeletions q).2, Planned D prev b := by
  obtain ⟨extra, e, -⟩ := enqueueDeletions_ok q
  rw [e]
  intro b hb
  obtain ⟨i, -, rfl⟩ := List.mem_map.1 hb
  exact .inl rfl

theorem planned_step {T T' : QSys} {e : QEvent} (he : e.isPop = false ∧ (∃ e', e ∈ EEvent.disc e'))
    (h : qStep T e = .ok T') (hi : ∀ b ∈ T.created, Planned T.q.shared T.q.prev b) :
    ∀ b ∈ T'.created, Planned T'.q.shared T'.q.prev b := by
  have mono : ∀ {D D' : List FileRec} {prev : List FileChunksInfo} {b : Source}, D ⊆ D' → Planned D prev b → Planned D' prev b := by
    rintro D D' prev b hD (hb | ⟨hb1, hb2⟩)
    · exact .inl hb
    · exact .inr ⟨hD hb1, hb2⟩
  cases e with
  | discover f =>
    simp only [qStep] at h
    split at h
    · cases h
    · split at h
      · cases h
      · rename_i q new hq
        cases h
        obtain ⟨-, -, -, k4, k5, -⟩ := createInternal_ok _ _ _ _ hq
        intro b hb
        simp only [k4, k5]
        rcases List.mem_append.1 hb with hb | hb
        · exact mono (List.subset_append_left _ _) (hi b hb)
        · obtain ⟨e1, e2, e3⟩ := createInternal_planned hq b hb
          refine .inr ⟨?_, e3⟩
          rw [e1, e2]; simp
  | finishDiscovery =>
    simp only [qStep] at h
    split at h
    · cases h
    · cases h
      obtain ⟨extra, e1, -, -, -, e5, -, -, -, -, e10, -⟩ := enqueueDeletions_ok { T.q with initFinished := true }
      intro b hb
      simp only [finishDiscovery] at hb ⊢
      rcases List.mem_append.1 hb with hb | hb
      · rw [e5, e10]; exact mono (List.subset_append_left _ _) (hi b hb)
      · exact enqueueDeletions_planned _ _ _ b hb
  | setPrev infos =>
    simp only [qStep] at h
    split at h
    · cases h
    · rename_i q new hq
      cases h
      unfold setPrev at hq
      split at hq
      · cases hq
      · simp only at hq
        split at hq
        · cases hq
        · rename_i q2 s2 h2
          cases hq
          obtain ⟨extra, e1, -, -, -, e5, -, -, -, -, e10, -⟩ := enqueueDeletions_ok q2
          obtain ⟨-, -, -, k4, k5, -⟩ := recreateLoop_ok _ _ _ _ h2
          intro b hb
          rcases List.mem_append.1 hb with hb | hb
          · have := recreateLoop_planned T.q.shared _ (fun f hf => hf) h2 b hb
            simp only [e5, e10, k4, k5]
            exact mono (List.subset_append_left _ _) this
          · exact enqueueDeletions_planned _ _ _ b hb
  | pop x => cases he.1
  | _ =>
    obtain ⟨e', h'⟩ := he.2
    unfold EEvent.disc at h'
    split at h' <;> simp at h'

theorem planned_run {es : List QEvent} : ∀ {T T' : QSys}, (∀ e ∈ es, e.isPop = false ∧ ∃ e', e ∈ EEvent.disc e') →
    qRun T es = .ok T' → (∀ b ∈ T.created, Planned T.q.shared T.q.prev b) → ∀ b ∈ T'.created, Planned T'.q.shared T'.q.prev b := by
  induction es with
  | nil => intro T T' _ h hi; simp only [qRun] at h; cases h; exact hi
  | cons e es ih =>
    intro T T' he h hi
    simp only [qRun] at h
    split at h
    · rename_i h1
      exact ih (fun e' h' => he e' (by simp [h'])) h (planned_step (he e (by simp)) h1 hi)
    · cases h
    · cases h

/-- Everything about the blocks of a transfer. -/
theorem blocks_of_transfer {c : ECfg} {mb : Int} {del : Bool} {es : List EEvent} {S : ESys}
    (h : eRun c (ESys.init c mb del) es = some S) (h1 : (installedLists (discOf es)).length ≤ 1) :
    BlocksOf mb (firstOfName (installedLists (discOf es)).flatten) (discoveredFiles (discOf es))
      ((S.snd.created.filter fun x => !isDeletion x).map fun x => (x.name, x.offset, x.size)) ∧
    ∀ b ∈ S.snd.created, ∀ f ∈ discoveredFiles (discOf es), b.name = f.name →
      (∃ g ∈ discoveredFiles (discOf es), g.name = b.name ∧ g.size = b.fileSize) ∧ b.status ≠ TO_BE_DELETED ∧
      ∃ next p, planFile (lookupPrev (firstOfName (installedLists (discOf es)).flatten) b.name) b.fileSize next = .ok (some p) ∧
        b.status = p.status := by
  obtain ⟨T, t1, t2⟩ := (Sim.init c mb del).run h
  have hf := final_finv mb del _ T (discOf_listFirst es) h1 t1
  rw [← t2.created]
  refine ⟨C16_blocks_of_files mb del _ T (discOf_listFirst es) h1 t1, ?_⟩
  have hp := planned_run (es := discOf es) (T := QSys.init mb del) (by
    intro a ha
    obtain ⟨e, -, he⟩ := List.mem_flatMap.1 ha
    refine ⟨?_, e, he⟩
    unfold EEvent.disc at he
    split at he <;> simp at he <;> rw [he] <;> rfl) t1 (by simp [QSys.init])
  intro b hb f hfd hname
  have hnd : b.status ≠ TO_BE_DELETED := by
    intro hst
    have hm : b ∈ T.created.filter isDeletion := List.mem_filter.2 ⟨hb, by simp [isDeletion, hst]⟩
    rw [hf.1.dels] at hm
    obtain ⟨i, hi, rfl⟩ := List.mem_map.1 hm
    split at hi
    · simp only [toDelete, List.mem_filter, Bool.not_eq_true', List.any_eq_false, decide_eq_true_eq] at hi
      exact hi.2 f hfd hname.symm
    · cases hi
  rcases hp b hb with hx | ⟨hx1, hx2⟩
  · exact absurd hx hnd
  · rw [hf.1.prev_eq] at hx2
    refine ⟨?_, hnd, hx2⟩
    rw [hf.1.shared] at hx1
    rcases List.mem_append.1 hx1 with hx1 | hx1
    · exact ⟨_, hx1, rfl, rfl⟩
    · obtain ⟨i, hi, hi2⟩ := List.mem_map.1 hx1
      split at hi
      · simp only [toDelete, List.mem_filter, Bool.not_eq_true', List.any_eq_false, decide_eq_true_eq] at hi
        refine absurd ?_ (hi.2 f hfd)
        simp only [FileRec.mk.injEq] at hi2
        rw [hi2.1, hname]
      · cases hi

/-- The blocks of one file. -/
theorem BlocksOf.mem {mb : Int} {prev : List FileChunksInfo} {fs : List FileRec} {l : List (Bytes × Int × Int)}
    (h : BlocksOf mb prev fs l) {f : FileRec} (hf : f ∈ fs) :
    ∃ bl next fuel, fileBlocks mb (lookupPrev prev f.name) f.size next fuel = .ok (some bl) ∧
      ∀ b ∈ bl, (f.name, b.offset, b.size) ∈ l := by
  induction h with
  | nil => cases hf
  | @cons g gs l bl next fuel hg _ ih =>
    rcases List.mem_cons.1 hf with rfl | hf
    · exact ⟨bl, next, fuel, hg, fun b hb => List.mem_append.2 (.inl (List.mem_map.2 ⟨b, hb, rfl⟩))⟩
    · obtain ⟨bl', n', f', e1, e2⟩ := ih hf
      exact ⟨bl', n', f', e1, fun b hb => List.mem_append.2 (.inr (e2 b hb))⟩

end Wdt
