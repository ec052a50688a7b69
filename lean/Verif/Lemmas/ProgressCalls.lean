import Verif.Model.ProgressCalls
import Mathlib.Tactic.Tauto
/-
Invariants of the calls of a progress reporter.
-/
namespace Wdt

/-- Beginnings and ends of the calls of a reporter. -/
inductive PgCall where
  | start
  | startRet
  | prog
  | progRet
  | stop
  | stopRet
deriving DecidableEq, Repr

/-- The call, of what can be observed. -/
def PgObs.call : PgObs → Option PgCall
  | .startCall => some .start
  | .startRet => some .startRet
  | .progCall _ => some .prog
  | .progRet => some .progRet
  | .endCall => some .stop
  | .endRet => some .stopRet
  | .work => none
  | .joined => none

/-- The calls of a run. -/
def pgCalls (l : List PgObs) : List PgCall := l.filterMap PgObs.call

/-- `k` calls of `progress`, one after the other. -/
def pgBody (k : Nat) : List PgCall := (List.replicate k [PgCall.prog, PgCall.progRet]).flatten

theorem pgBody_succ (k : Nat) : pgBody (k + 1) = pgBody k ++ [.prog, .progRet] := by
  simp [pgBody, List.replicate_succ', List.flatten_append]

theorem pgCalls_snoc (l : List PgObs) (o : PgObs) : pgCalls (l ++ [o]) = pgCalls l ++ (o.call.toList) := by
  unfold pgCalls
  rw [List.filterMap_append]
  cases h : o.call <;> simp [List.filterMap_cons, h]

/-- What has been called before the thread that reports is made. -/
def pgPre (c : PgCfg) : List PgCall := if c.starts then [.start, .startRet] else []

/-- What `finish` adds. -/
def pgPost (c : PgCfg) : List PgCall := if c.starts then [.stop, .stopRet] else []

theorem ends_starts (c : PgCfg) (t : Int) (h : c.ends t = true) : c.starts = true := by
  unfold PgCfg.ends at h
  unfold PgCfg.starts
  split at h <;> simp_all

theorem not_starts_p (c : PgCfg) (h : c.starts = false) : c.p ≤ 0 := by
  unfold PgCfg.starts PgCfg.present at h
  split at h <;> simp_all

theorem sender_starts_makes (c : PgCfg) (hs : c.sender = true) : c.makes = c.starts := by
  simp [PgCfg.makes, PgCfg.starts, hs]

/-- Where the thread that reports can be when no reporter was told to start, and how often it has called. -/
def pgQuiet (c : PgCfg) (tr : PgTr) (k : Nat) : Prop :=
  c.starts = false → k = 0 ∧ (tr = .none ∨ (tr = .entry ∧ c.sender = false) ∨ tr = .done)

/-- Beginning of a call that is going on. -/
def pgOpen (tr : PgTr) : List PgCall := if tr = .inProgress then [.prog] else []

/-- The calls, by where the application's thread is. -/
def PgInv (good : Prop) (c : PgCfg) (s : PgSt) : Prop :=
  match s.app with
  | .idle => pgCalls s.obs = [] ∧ s.tr = .none
  | .begun => pgCalls s.obs = [] ∧ s.tr = .none
  | .inStart => c.starts = true ∧ pgCalls s.obs = [.start] ∧ s.tr = .none
  | .make => pgCalls s.obs = pgPre c ∧ s.tr = .none
  | .running => ∃ k, pgCalls s.obs = pgPre c ++ pgBody k ++ pgOpen s.tr ∧ pgQuiet c s.tr k
  | .joinWorkers => ∃ k, pgCalls s.obs = pgPre c ++ pgBody k ++ pgOpen s.tr ∧ pgQuiet c s.tr k
  | .joinTracker => ∃ k, pgCalls s.obs = pgPre c ++ pgBody k ++ pgOpen s.tr ∧ pgQuiet c s.tr k
  | .haveReport => (s.tr = .done ∨ s.tr = .none) ∧ ∃ k, pgCalls s.obs = pgPre c ++ pgBody k ∧ pgQuiet c s.tr k
  | .inEnd => c.starts = true ∧ (s.tr = .done ∨ s.tr = .none) ∧ ∃ k, pgCalls s.obs = pgPre c ++ pgBody k ++ [.stop]
  | .over => (s.tr = .done ∨ s.tr = .none) ∧ ∃ k, (c.starts = false → k = 0) ∧
      (pgCalls s.obs = pgPre c ++ pgBody k ++ pgPost c ∨ (¬ good ∧ pgCalls s.obs = pgPre c ++ pgBody k))

/-- The thread that reports moves without a call beginning or ending. -/
theorem PgInv.move {good : Prop} {c : PgCfg} {s s' : PgSt} (h : PgInv good c s) (ha : s'.app = s.app)
    (ho : pgCalls s'.obs = pgCalls s.obs) (h0 : s.tr ≠ .none ∧ s.tr ≠ .done) (hp : pgOpen s'.tr = pgOpen s.tr)
    (hq : c.starts = false → s.tr ≠ .none → s.tr = .entry → c.sender = false → s'.tr = .done) : PgInv good c s' := by
  unfold PgInv at h ⊢
  rw [ha]
  obtain ⟨h1, h2⟩ := h0
  cases happ : s.app <;> simp only [happ] at h ⊢
  · exact absurd h.2 h1
  · exact absurd h.2 h1
  · exact absurd h.2.2 h1
  · exact absurd h.2 h1
  all_goals first
    | (obtain ⟨k, hk, hk2⟩ := h
       refine ⟨k, by rw [ho, hk, hp], ?_⟩
       intro hst
       obtain ⟨a, b⟩ := hk2 hst
       refine ⟨a, .inr (.inr ?_)⟩
       rcases b with b | b | b
       · exact absurd b h1
       · exact hq hst h1 b.1 b.2
       · exact absurd b h2)
    | (rcases h.1 with hd | hd
       · exact absurd hd h2
       · exact absurd hd h1)
    | (rcases h.2.1 with hd | hd
       · exact absurd hd h2
       · exact absurd hd h1)

/-- Only other parts of the state change. -/
theorem PgInv.same {good : Prop} {c : PgCfg} {s s' : PgSt} (h : PgInv good c s) (ha : s'.app = s.app)
    (ho : pgCalls s'.obs = pgCalls s.obs) (ht : s'.tr = s.tr) : PgInv good c s' := by
  unfold PgInv at h ⊢
  rw [ha, ho, ht]
  exact h

theorem pgEntry_tr {c : PgCfg} {s s' : PgSt} (h : pgEntry c s = .ok s') :
    s'.app = s.app ∧ s'.obs = s.obs ∧ (s'.tr = .wantLock ∨ s'.tr = .done) ∧
    (c.sender = false → c.p ≤ 0 → s'.tr = .done) := by
  unfold pgEntry at h
  split at h
  · next hs =>
    split at h
    · cases h; exact ⟨rfl, rfl, .inl rfl, fun h' => by rw [hs] at h'; cases h'⟩
    · cases h
  · split at h
    · cases h; exact ⟨rfl, rfl, .inr rfl, fun _ _ => rfl⟩
    · next hn => cases h; exact ⟨rfl, rfl, .inl rfl, fun _ hp => absurd (.inl hp) hn⟩

theorem pgReport_tr {s s' : PgSt} {eff : Int} (h : pgReport s eff = .ok s') :
    s'.app = s.app ∧ s'.tr = .inProgress ∧ ∃ r, s'.obs = s.obs ++ [.progCall r] := by
  unfold pgReport at h
  split at h
  · split at h <;> (cases h; exact ⟨rfl, rfl, _, rfl⟩)
  · cases h

/-- `progress` begins or ends. -/
theorem PgInv.call {good : Prop} {c : PgCfg} {s s' : PgSt} (h : PgInv good c s) (ha : s'.app = s.app)
    (h0 : s.tr ≠ .none ∧ s.tr ≠ .done ∧ s.tr ≠ .entry)
    (hp : ∀ k, pgCalls s.obs = pgPre c ++ pgBody k ++ pgOpen s.tr →
      ∃ k', pgCalls s'.obs = pgPre c ++ pgBody k' ++ pgOpen s'.tr) : PgInv good c s' := by
  unfold PgInv at h ⊢
  rw [ha]
  obtain ⟨h1, h2, h3⟩ := h0
  cases happ : s.app <;> simp only [happ] at h ⊢
  · exact absurd h.2 h1
  · exact absurd h.2 h1
  · exact absurd h.2.2 h1
  · exact absurd h.2 h1
  all_goals first
    | (obtain ⟨k, hk, hk2⟩ := h
       obtain ⟨k', hk'⟩ := hp k hk
       refine ⟨k', hk', ?_⟩
       intro hst
       obtain ⟨a, b⟩ := hk2 hst
       rcases b with b | b | b
       · exact absurd b h1
       · exact absurd b.1 h3
       · exact absurd b h2)
    | (rcases h.1 with hd | hd
       · exact absurd hd h2
       · exact absurd hd h1)
    | (rcases h.2.1 with hd | hd
       · exact absurd hd h2
       · exact absurd hd h1)

theorem PgInv.step {good : Prop} {c : PgCfg} {s s' : PgSt} {e : PgEv} (h : PgInv good c s)
    (hg : good → ∀ t, e = .appEnd t → c.ends t = c.starts) (hs : pgStep c s e = .ok s') : PgInv good c s' := by
  cases e <;> dsimp only [pgStep] at hs
  case tick d => cases hs; exact h.same rfl rfl rfl
  case setClock t => cases hs; exact h.same rfl rfl rfl
  case work =>
    split at hs <;> cases hs
    exact h.same rfl (by rw [pgCalls_snoc]; simp [PgObs.call]) rfl
  case workersEnd =>
    split at hs <;> cases hs
    exact h.same rfl rfl rfl
  case appStart =>
    split at hs
    · next ha => cases hs; unfold PgInv at h ⊢; simp only [ha] at h; exact h
    · split at hs
      · split at hs <;> cases hs; exact h
      · cases hs
  case appCallStart =>
    split at hs
    · next ha =>
      unfold PgInv at h
      simp only [ha] at h
      split at hs
      · next hst => cases hs; unfold PgInv; exact ⟨hst, by rw [pgCalls_snoc, h.1]; rfl, h.2⟩
      · next hst => cases hs; unfold PgInv; exact ⟨by rw [h.1, pgPre, if_neg hst], h.2⟩
    · cases hs
  case appStartRet =>
    split at hs
    · next ha =>
      unfold PgInv at h
      simp only [ha] at h
      cases hs
      unfold PgInv
      exact ⟨by rw [pgCalls_snoc, h.2.1, pgPre, if_pos h.1]; rfl, h.2.2⟩
    · cases hs
  case appMake =>
    split at hs
    · next ha =>
      unfold PgInv at h
      simp only [ha] at h
      cases hs
      unfold PgInv
      refine ⟨0, ?_, ?_⟩
      · dsimp only
        rw [h.1]
        cases c.makes <;> simp [pgBody, pgOpen]
      · intro hst
        refine ⟨rfl, ?_⟩
        dsimp only
        cases hse : c.sender
        · simp [PgCfg.makes, hse]
        · rw [sender_starts_makes c hse, hst]; simp
    · cases hs
  case appFinish =>
    split at hs
    · next ha => cases hs; unfold PgInv at h ⊢; simp only [ha] at h; exact h
    · split at hs <;> cases hs; exact h
  case appJoined =>
    split at hs
    · next ha =>
      unfold PgInv at h
      simp only [ha.1] at h
      cases hs
      unfold PgInv
      obtain ⟨k, hk, hq⟩ := h
      refine ⟨k, ?_, ?_⟩
      · dsimp only
        rw [pgCalls_snoc, hk]
        cases s.tr <;> simp [pgOpen, PgObs.call]
      · intro hst
        obtain ⟨a, b⟩ := hq hst
        refine ⟨a, ?_⟩
        dsimp only
        cases htr : s.tr <;> simp_all
    · cases hs
  case appTracker =>
    split at hs
    · next ha =>
      unfold PgInv at h
      simp only [ha.1] at h
      cases hs
      unfold PgInv
      obtain ⟨k, hk, hq⟩ := h
      refine ⟨ha.2, k, ?_, hq⟩
      rw [hk]
      rcases ha.2 with hd | hd <;> simp [hd, pgOpen]
    · cases hs
  case appEnd t =>
    split at hs
    · next ha =>
      unfold PgInv at h
      simp only [ha] at h
      obtain ⟨h1, k, hk, hq⟩ := h
      split at hs
      · next he =>
        cases hs
        unfold PgInv
        exact ⟨ends_starts c t he, h1, k, by rw [pgCalls_snoc, hk]; rfl⟩
      · next he =>
        cases hs
        unfold PgInv
        refine ⟨h1, k, fun hst => (hq hst).1, ?_⟩
        by_cases hgood : good
        · left
          have := hg hgood t rfl
          have hst : c.starts = false := by rw [← this]; simpa using he
          rw [hk, pgPost, hst]
          simp
        · exact .inr ⟨hgood, hk⟩
    · cases hs
  case appEndRet =>
    split at hs
    · next ha =>
      unfold PgInv at h
      simp only [ha] at h
      obtain ⟨h0, h1, k, hk⟩ := h
      cases hs
      unfold PgInv
      refine ⟨h1, k, fun hst => (by rw [h0] at hst; cases hst), .inl ?_⟩
      dsimp only
      rw [pgCalls_snoc, hk, pgPost, if_pos h0]
      simp [PgObs.call]
    · cases hs
  case trEntry =>
    split at hs
    · next ha =>
      obtain ⟨h1, h2, h3, h4⟩ := pgEntry_tr hs
      refine h.move h1 (by rw [h2]) (by rw [ha]; simp) ?_ ?_
      · rw [ha]; rcases h3 with h3 | h3 <;> simp [h3, pgOpen]
      · intro hst _ _ hse
        exact h4 hse (not_starts_p c hst)
    · cases hs
  case trWait =>
    split at hs
    · next ha => cases hs; exact h.move rfl rfl (by rw [ha]; simp) (by rw [ha]; simp [pgOpen]) (by rw [ha]; simp)
    · cases hs
  case trTimeout =>
    split at hs
    · next ha =>
      split at hs
      · cases hs; exact h.move rfl rfl (by rw [ha]; simp) (by rw [ha]; simp [pgOpen]) (by rw [ha]; simp)
      · cases hs
    · cases hs
  case trSpurious =>
    split at hs
    · next ha => cases hs; exact h.move rfl rfl (by rw [ha]; simp) (by rw [ha]; simp [pgOpen]) (by rw [ha]; simp)
    · cases hs
  case trTest =>
    split at hs
    · next ha =>
      split at hs <;>
        (cases hs; exact h.move rfl rfl (by rw [ha]; simp) (by rw [ha]; simp [pgOpen]) (by rw [ha]; simp))
    · cases hs
  case trRead eff =>
    split at hs
    · next ha => cases hs; exact h.move rfl rfl (by rw [ha]; simp) (by rw [ha]; simp [pgOpen]) (by rw [ha]; simp)
    · cases hs
  case trReport =>
    split at hs
    · next eff ha =>
      obtain ⟨h1, h2, r, h3⟩ := pgReport_tr hs
      refine h.call h1 (by rw [ha]; simp) ?_
      intro k hk
      refine ⟨k, ?_⟩
      rw [h3, pgCalls_snoc, hk, ha, h2]
      simp [pgOpen, PgObs.call]
    · cases hs
  case trRet =>
    split at hs
    · next ha =>
      cases hs
      refine h.call rfl (by rw [ha]; simp) ?_
      intro k hk
      refine ⟨k + 1, ?_⟩
      dsimp only
      rw [pgCalls_snoc, hk, ha, pgBody_succ]
      simp [pgOpen, PgObs.call]
    · cases hs

theorem pgRun_cons {c : PgCfg} {s s' : PgSt} {e : PgEv} {l : List PgEv} (h : pgRun c s (e :: l) = .ok s') :
    ∃ s1, pgStep c s e = .ok s1 ∧ pgRun c s1 l = .ok s' := by
  unfold pgRun at h
  split at h
  · next s1 h1 => exact ⟨s1, h1, h⟩
  · cases h
  · cases h

theorem PgInv.run {good : Prop} {c : PgCfg} : ∀ {l : List PgEv} {s s' : PgSt}, PgInv good c s →
    (good → ∀ t, .appEnd t ∈ l → c.ends t = c.starts) → pgRun c s l = .ok s' → PgInv good c s' := by
  intro l
  induction l with
  | nil => intro s s' h _ hr; cases hr; exact h
  | cons e l ih =>
    intro s s' h hg hr
    obtain ⟨s1, h1, h2⟩ := pgRun_cons hr
    exact ih (h.step (fun g t ht => hg g t (by rw [ht]; exact List.mem_cons_self)) h1)
      (fun g t ht => hg g t (List.mem_cons_of_mem _ ht)) h2

theorem PgInv.init (good : Prop) (c : PgCfg) (t : Int) : PgInv good c { wall := t } := ⟨rfl, rfl⟩

/-! ### The numbers -/

/-- The reports of a run. -/
def PgObs.rep : PgObs → Option PgRep
  | .progCall r => some r
  | _ => none

/-- What was given to `progress`, in order. -/
def pgReps (l : List PgObs) : List PgRep := l.filterMap PgObs.rep

theorem pgReps_snoc (l : List PgObs) (o : PgObs) : pgReps (l ++ [o]) = pgReps l ++ (o.rep.toList) := by
  unfold pgReps
  rw [List.filterMap_append]
  cases h : o.rep <;> simp [List.filterMap_cons, h]

/-- Bytes transferred as of report `j`, counted from 1; none before the first. -/
def effAt (l : List PgRep) (j : Nat) : Int := if j = 0 then 0 else ((l[j - 1]?).map PgRep.eff).getD 0

/-- The time of report `j`, counted from 1, or of the beginning. -/
def timeAt (t0 : Int) (l : List PgRep) (j : Nat) : Int := if j = 0 then t0 else ((l[j - 1]?).map PgRep.time).getD 0

/-- Bytes and time between reports `(q - 1) * M` and `q * M`. -/
def tputAt (M : Nat) (t0 : Int) (l : List PgRep) (q : Nat) : Option (Int × Int) :=
  if q = 0 then none
  else some (effAt l (q * M) - effAt l ((q - 1) * M), timeAt t0 l (q * M) - timeAt t0 l ((q - 1) * M))

/-- Number of reports after which the throughput is computed anew. -/
def pgEvery (c : PgCfg) : Nat := max 1 (c.u.tdiv c.p).toNat

theorem effAt_snoc (l : List PgRep) (r : PgRep) (j : Nat) (h : j ≤ l.length) : effAt (l ++ [r]) j = effAt l j := by
  unfold effAt
  by_cases h0 : j = 0
  · simp [h0]
  · rw [if_neg h0, if_neg h0, List.getElem?_append_left (by omega)]

theorem timeAt_snoc (t0 : Int) (l : List PgRep) (r : PgRep) (j : Nat) (h : j ≤ l.length) :
    timeAt t0 (l ++ [r]) j = timeAt t0 l j := by
  unfold timeAt
  by_cases h0 : j = 0
  · simp [h0]
  · rw [if_neg h0, if_neg h0, List.getElem?_append_left (by omega)]

theorem effAt_last (l : List PgRep) (r : PgRep) : effAt (l ++ [r]) (l.length + 1) = r.eff := by
  unfold effAt; simp

theorem timeAt_last (t0 : Int) (l : List PgRep) (r : PgRep) : timeAt t0 (l ++ [r]) (l.length + 1) = r.time := by
  unfold timeAt; simp

theorem tputAt_snoc (M : Nat) (t0 : Int) (l : List PgRep) (r : PgRep) (q : Nat) (h : q * M ≤ l.length) :
    tputAt M t0 (l ++ [r]) q = tputAt M t0 l q := by
  unfold tputAt
  by_cases h0 : q = 0
  · simp [h0]
  · have h1 : (q - 1) * M ≤ l.length := Nat.le_trans (Nat.mul_le_mul_right M (by omega)) h
    rw [if_neg h0, if_neg h0, effAt_snoc l r _ h, effAt_snoc l r _ h1, timeAt_snoc t0 l r _ h, timeAt_snoc t0 l r _ h1]

theorem every_pos (c : PgCfg) : 0 < pgEvery c := by unfold pgEvery; omega

/-- The numbers of the loop. -/
structure PgNum (c : PgCfg) (s : PgSt) : Prop where
  past : ∀ i r, (pgReps s.obs)[i]? = some r → r.cur = tputAt (pgEvery c) s.t0 (pgReps s.obs) ((i + 1) / pgEvery c)
  before : s.tr = .none ∨ s.tr = .entry → pgReps s.obs = []
  early : s.app = .idle ∨ s.app = .begun ∨ s.app = .inStart ∨ s.app = .make → s.tr = .none
  opts : s.tr ≠ .none → s.tr ≠ .entry → s.tr ≠ .done → 0 < c.p ∧ 0 ≤ c.u ∧ s.m = c.u.tdiv c.p
  count : s.tr ≠ .none → s.tr ≠ .entry → s.tr ≠ .done → s.k = (((pgReps s.obs).length % pgEvery c : Nat) : Int)
  last : s.tr ≠ .none → s.tr ≠ .entry → s.tr ≠ .done →
    s.last = effAt (pgReps s.obs) ((pgReps s.obs).length / pgEvery c * pgEvery c) ∧
    s.lastTime = timeAt s.t0 (pgReps s.obs) ((pgReps s.obs).length / pgEvery c * pgEvery c)
  cur : s.tr ≠ .none → s.tr ≠ .entry → s.tr ≠ .done →
    s.cur = tputAt (pgEvery c) s.t0 (pgReps s.obs) ((pgReps s.obs).length / pgEvery c)

theorem PgNum.init (c : PgCfg) (t : Int) : PgNum c { wall := t } where
  past := fun i r h => by simp [pgReps] at h
  before := fun _ => rfl
  early := fun _ => rfl
  opts := fun h => absurd rfl h
  count := fun h => absurd rfl h
  last := fun h => absurd rfl h
  cur := fun h => absurd rfl h

/-- Nothing of the loop changes. -/
theorem PgNum.move {c : PgCfg} {s s' : PgSt} (h : PgNum c s) (ho : pgReps s'.obs = pgReps s.obs) (ht : s'.t0 = s.t0)
    (h1 : s'.tr = .none ∨ s'.tr = .entry → pgReps s.obs = [])
    (h2 : s'.app = .idle ∨ s'.app = .begun ∨ s'.app = .inStart ∨ s'.app = .make → s'.tr = .none)
    (h3 : s'.tr ≠ .none → s'.tr ≠ .entry → s'.tr ≠ .done →
      (s.tr ≠ .none ∧ s.tr ≠ .entry ∧ s.tr ≠ .done) ∧ s'.m = s.m ∧ s'.k = s.k ∧ s'.last = s.last ∧ s'.lastTime = s.lastTime ∧
      s'.cur = s.cur) : PgNum c s' where
  past := by rw [ho, ht]; exact h.past
  before := by rw [ho]; exact h1
  early := h2
  opts := fun a b d => by obtain ⟨⟨x, y, z⟩, e1, _⟩ := h3 a b d; rw [e1]; exact h.opts x y z
  count := fun a b d => by obtain ⟨⟨x, y, z⟩, _, e1, _⟩ := h3 a b d; rw [e1, ho]; exact h.count x y z
  last := fun a b d => by
    obtain ⟨⟨x, y, z⟩, _, _, e1, e2, _⟩ := h3 a b d; rw [e1, e2, ho, ht]; exact h.last x y z
  cur := fun a b d => by obtain ⟨⟨x, y, z⟩, _, _, _, _, e1⟩ := h3 a b d; rw [e1, ho, ht]; exact h.cur x y z

theorem every_cases (c : PgCfg) (hp : 0 < c.p) (hu : 0 ≤ c.u) (n : Nat) :
    (c.u.tdiv c.p ≤ ((n % pgEvery c : Nat) : Int) + 1 → (n + 1) / pgEvery c = n / pgEvery c + 1 ∧ (n + 1) % pgEvery c = 0) ∧
    (¬ c.u.tdiv c.p ≤ ((n % pgEvery c : Nat) : Int) + 1 →
      (n + 1) / pgEvery c = n / pgEvery c ∧ (n + 1) % pgEvery c = n % pgEvery c + 1) := by
  have h0 := every_pos c
  have hm : (0 : Int) ≤ c.u.tdiv c.p := Int.tdiv_nonneg hu (by omega)
  have hE : pgEvery c = max 1 (c.u.tdiv c.p).toNat := rfl
  generalize c.u.tdiv c.p = q at hm hE ⊢
  generalize pgEvery c = M at h0 hE ⊢
  have hlt := Nat.mod_lt n h0
  have hdm := Nat.div_add_mod n M
  constructor
  · intro hle
    have hr : n % M + 1 = M := by omega
    have hn : n + 1 = M * (n / M + 1) := by rw [Nat.mul_add]; omega
    constructor
    · rw [hn, Nat.mul_div_cancel_left _ h0]
    · rw [hn, Nat.mul_mod_right]
  · intro hle
    have hr : n % M + 1 < M := by omega
    have hn : n + 1 = M * (n / M) + (n % M + 1) := by omega
    constructor
    · rw [hn, Nat.mul_add_div h0, Nat.div_eq_of_lt hr, Nat.add_zero]
    · rw [hn, Nat.mul_add_mod, Nat.mod_eq_of_lt hr]

theorem PgNum.report {c : PgCfg} {s s' : PgSt} {eff : Int} (h : PgNum c s) (htr : s.tr = .got eff)
    (hr : pgReport s eff = .ok s') : PgNum c s' := by
  have n1 : s.tr ≠ .none := by rw [htr]; simp
  have n2 : s.tr ≠ .entry := by rw [htr]; simp
  have n3 : s.tr ≠ .done := by rw [htr]; simp
  obtain ⟨hp, hu, hm⟩ := h.opts n1 n2 n3
  have hk := h.count n1 n2 n3
  obtain ⟨hl1, hl2⟩ := h.last n1 n2 n3
  have hc := h.cur n1 n2 n3
  have hM := every_pos c
  obtain ⟨cs1, cs2⟩ := every_cases c hp hu (pgReps s.obs).length
  rw [← hm, ← hk] at cs1 cs2
  have hle : (pgReps s.obs).length / pgEvery c * pgEvery c ≤ (pgReps s.obs).length := Nat.div_mul_le_self _ _
  have early : ¬ (s.app = .idle ∨ s.app = .begun ∨ s.app = .inStart ∨ s.app = .make) := fun ha => n1 (h.early ha)
  have old : ∀ (r0 : PgRep) (i : Nat) (r : PgRep), (pgReps s.obs)[i]? = some r →
      r.cur = tputAt (pgEvery c) s.t0 (pgReps s.obs ++ [r0]) ((i + 1) / pgEvery c) := by
    intro r0 i r hi
    have hlt : i < (pgReps s.obs).length := by
      rcases Nat.lt_or_ge i (pgReps s.obs).length with hh | hh
      · exact hh
      · rw [List.getElem?_eq_none hh] at hi; cases hi
    rw [tputAt_snoc _ _ _ _ _ (Nat.le_trans (Nat.div_mul_le_self _ _) hlt)]
    exact h.past i r hi
  unfold pgReport at hr
  split at hr
  swap
  · cases hr
  split at hr
  · next hle' =>
    obtain ⟨d1, d2⟩ := cs1 hle'
    have hfull : ((pgReps s.obs).length / pgEvery c + 1) * pgEvery c = (pgReps s.obs).length + 1 := by
      have := Nat.div_add_mod ((pgReps s.obs).length + 1) (pgEvery c)
      rw [d2, Nat.add_zero, d1, Nat.mul_comm] at this
      exact this
    have key : ∀ r0 : PgRep, r0.eff = eff → r0.time = s.wall →
        tputAt (pgEvery c) s.t0 (pgReps s.obs ++ [r0]) ((pgReps s.obs).length / pgEvery c + 1) =
        some (eff - s.last, s.wall - s.lastTime) := by
      intro r0 e1 e2
      unfold tputAt
      rw [if_neg (Nat.succ_ne_zero _), hfull, effAt_last, timeAt_last, Nat.add_sub_cancel, effAt_snoc _ _ _ hle, timeAt_snoc _ _ _ _ hle,
        ← hl1, ← hl2, e1, e2]
    cases hr
    refine ⟨?_, ?_, ?_, ?_, ?_, ?_, ?_⟩
    · intro i r hi
      dsimp only at hi ⊢
      rw [pgReps_snoc] at hi ⊢
      simp only [PgObs.rep, Option.toList_some] at hi ⊢
      rcases Nat.lt_or_ge i (pgReps s.obs).length with hh | hh
      · rw [List.getElem?_append_left hh] at hi
        exact old _ i r hi
      · rw [List.getElem?_append_right hh] at hi
        rcases Nat.lt_or_ge 0 (i - (pgReps s.obs).length) with hz | hz
        · rw [List.getElem?_eq_none (by simp only [List.length_singleton]; omega)] at hi; cases hi
        · have hi0 : i = (pgReps s.obs).length := by omega
          subst hi0
          simp only [Nat.sub_self, List.getElem?_cons_zero, Option.some.injEq] at hi
          rw [d1, key _ rfl rfl, ← hi]
    · intro hh; rcases hh with hh | hh <;> cases hh
    · intro ha; exact absurd ha early
    · intro _ _ _; exact ⟨hp, hu, hm⟩
    · intro _ _ _
      dsimp only
      rw [pgReps_snoc]
      simp only [PgObs.rep, Option.toList_some, List.length_append, List.length_singleton]
      rw [d2]; rfl
    · intro _ _ _
      dsimp only
      rw [pgReps_snoc]
      simp only [PgObs.rep, Option.toList_some, List.length_append, List.length_singleton]
      rw [d1, hfull, effAt_last, timeAt_last]
      exact ⟨rfl, rfl⟩
    · intro _ _ _
      dsimp only
      rw [pgReps_snoc]
      simp only [PgObs.rep, Option.toList_some, List.length_append, List.length_singleton]
      rw [d1, key _ rfl rfl]
  · next hle' =>
    obtain ⟨d1, d2⟩ := cs2 hle'
    cases hr
    refine ⟨?_, ?_, ?_, ?_, ?_, ?_, ?_⟩
    · intro i r hi
      dsimp only at hi ⊢
      rw [pgReps_snoc] at hi ⊢
      simp only [PgObs.rep, Option.toList_some] at hi ⊢
      rcases Nat.lt_or_ge i (pgReps s.obs).length with hh | hh
      · rw [List.getElem?_append_left hh] at hi
        exact old _ i r hi
      · rw [List.getElem?_append_right hh] at hi
        rcases Nat.lt_or_ge 0 (i - (pgReps s.obs).length) with hz | hz
        · rw [List.getElem?_eq_none (by simp only [List.length_singleton]; omega)] at hi; cases hi
        · have hi0 : i = (pgReps s.obs).length := by omega
          subst hi0
          simp only [Nat.sub_self, List.getElem?_cons_zero, Option.some.injEq] at hi
          rw [d1, tputAt_snoc _ _ _ _ _ hle, ← hc, ← hi]
    · intro hh; rcases hh with hh | hh <;> cases hh
    · intro ha; exact absurd ha early
    · intro _ _ _; exact ⟨hp, hu, hm⟩
    · intro _ _ _
      dsimp only
      rw [pgReps_snoc]
      simp only [PgObs.rep, Option.toList_some, List.length_append, List.length_singleton]
      rw [d2, hk]; push_cast; rfl
    · intro _ _ _
      dsimp only
      rw [pgReps_snoc]
      simp only [PgObs.rep, Option.toList_some, List.length_append, List.length_singleton]
      rw [d1, effAt_snoc _ _ _ hle, timeAt_snoc _ _ _ _ hle]
      exact ⟨hl1, hl2⟩
    · intro _ _ _
      dsimp only
      rw [pgReps_snoc]
      simp only [PgObs.rep, Option.toList_some, List.length_append, List.length_singleton]
      rw [d1, tputAt_snoc _ _ _ _ _ hle]
      exact hc

theorem PgNum.entry {c : PgCfg} {s s' : PgSt} (h : PgNum c s) (htr : s.tr = .entry)
    (hr : pgEntry c s = .ok s') : PgNum c s' := by
  have h0 := h.before (.inr htr)
  have early : ¬ (s.app = .idle ∨ s.app = .begun ∨ s.app = .inStart ∨ s.app = .make) := fun ha => by
    have := h.early ha; rw [htr] at this; cases this
  have fill : ∀ s1 : PgSt, s1.obs = s.obs → s1.app = s.app → s1.tr = .wantLock → 0 < c.p → 0 ≤ c.u → s1.m = c.u.tdiv c.p →
      s1.k = 0 → s1.last = 0 → s1.lastTime = s1.t0 → s1.cur = none → PgNum c s1 := by
    intro s1 e1 e2 e3 e4 e5 e6 e7 e8 e9 e10
    refine ⟨?_, ?_, ?_, ?_, ?_, ?_, ?_⟩
    · intro i r hi; rw [e1, h0] at hi; simp at hi
    · intro _; rw [e1, h0]
    · intro ha; rw [e2] at ha; exact absurd ha early
    · intro _ _ _; exact ⟨e4, e5, e6⟩
    · intro _ _ _; rw [e1, h0, e7]; simp
    · intro _ _ _; rw [e1, h0, e8, e9]; simp [effAt, timeAt]
    · intro _ _ _; rw [e1, h0, e10]; simp [tputAt]
  unfold pgEntry at hr
  split at hr
  · split at hr
    · next ho => cases hr; exact fill _ rfl rfl rfl ho.1 ho.2 rfl rfl rfl rfl rfl
    · cases hr
  · split at hr
    · cases hr
      exact h.move rfl rfl (fun _ => h0) (fun ha => absurd ha early) (fun _ _ hd => absurd rfl hd)
    · next ho =>
      have : 0 < c.p ∧ 0 ≤ c.u := by omega
      cases hr; exact fill _ rfl rfl rfl this.1 this.2 rfl rfl rfl rfl rfl

theorem PgNum.step {c : PgCfg} {s s' : PgSt} {e : PgEv} (h : PgNum c s) (hs : pgStep c s e = .ok s') : PgNum c s' := by
  have tm : ∀ t : PgTr, s.tr ≠ .none → s.tr ≠ .entry → s.tr ≠ .done → t ≠ .none → t ≠ .entry → ∀ s1 : PgSt,
      s1 = { s with tr := t } → PgNum c s1 := by
    intro t a b d x y s1 hs1
    subst hs1
    exact h.move rfl rfl (fun hh => by rcases hh with hh | hh <;> contradiction) (fun ha => absurd (h.early ha) a)
      (fun _ _ _ => ⟨⟨a, b, d⟩, rfl, rfl, rfl, rfl, rfl⟩)
  cases e <;> dsimp only [pgStep] at hs
  case tick d => cases hs; exact h.move rfl rfl h.before h.early (fun a b d => ⟨⟨a, b, d⟩, rfl, rfl, rfl, rfl, rfl⟩)
  case setClock t => cases hs; exact h.move rfl rfl h.before h.early (fun a b d => ⟨⟨a, b, d⟩, rfl, rfl, rfl, rfl, rfl⟩)
  case work =>
    split at hs <;> cases hs
    exact h.move (by rw [pgReps_snoc]; simp [PgObs.rep]) rfl h.before h.early
      (fun a b d => ⟨⟨a, b, d⟩, rfl, rfl, rfl, rfl, rfl⟩)
  case workersEnd =>
    split at hs <;> cases hs
    exact h.move rfl rfl h.before h.early (fun a b d => ⟨⟨a, b, d⟩, rfl, rfl, rfl, rfl, rfl⟩)
  case appStart =>
    split at hs
    · next ha =>
      cases hs
      exact h.move rfl rfl h.before (fun _ => h.early (.inl ha)) (fun a b d => ⟨⟨a, b, d⟩, rfl, rfl, rfl, rfl, rfl⟩)
    · split at hs
      · split at hs <;> cases hs; exact h
      · cases hs
  case appCallStart =>
    split at hs
    · next ha =>
      split at hs <;> cases hs
      · exact h.move (by rw [pgReps_snoc]; simp [PgObs.rep]) rfl h.before (fun _ => h.early (.inr (.inl ha)))
          (fun a b d => ⟨⟨a, b, d⟩, rfl, rfl, rfl, rfl, rfl⟩)
      · exact h.move rfl rfl h.before (fun _ => h.early (.inr (.inl ha))) (fun a b d => ⟨⟨a, b, d⟩, rfl, rfl, rfl, rfl, rfl⟩)
    · cases hs
  case appStartRet =>
    split at hs
    · next ha =>
      cases hs
      exact h.move (by rw [pgReps_snoc]; simp [PgObs.rep]) rfl h.before (fun _ => h.early (.inr (.inr (.inl ha))))
        (fun a b d => ⟨⟨a, b, d⟩, rfl, rfl, rfl, rfl, rfl⟩)
    · cases hs
  case appMake =>
    split at hs
    · next ha =>
      cases hs
      refine h.move rfl rfl (fun _ => h.before (.inl (h.early (.inr (.inr (.inr ha)))))) ?_ ?_
      · intro hh; rcases hh with hh | hh | hh | hh <;> cases hh
      · dsimp only
        intro a b _
        exfalso
        cases hm : c.makes <;> simp [hm] at a b
    · cases hs
  case appFinish =>
    split at hs
    · next ha =>
      cases hs
      exact h.move rfl rfl h.before (fun hh => by rcases hh with hh | hh | hh | hh <;> cases hh)
        (fun a b d => ⟨⟨a, b, d⟩, rfl, rfl, rfl, rfl, rfl⟩)
    · split at hs <;> cases hs; exact h
  case appJoined =>
    split at hs
    · next ha =>
      cases hs
      refine h.move (by rw [pgReps_snoc]; simp [PgObs.rep]) rfl ?_ (fun hh => by rcases hh with hh | hh | hh | hh <;> cases hh) ?_
      · dsimp only
        intro hh
        refine h.before ?_
        cases htr : s.tr <;> simp_all
      · dsimp only
        intro a b d
        refine ⟨?_, rfl, rfl, rfl, rfl, rfl⟩
        cases htr : s.tr <;> simp_all
    · cases hs
  case appTracker =>
    split at hs
    · cases hs
      exact h.move rfl rfl h.before (fun hh => by rcases hh with hh | hh | hh | hh <;> cases hh)
        (fun a b d => ⟨⟨a, b, d⟩, rfl, rfl, rfl, rfl, rfl⟩)
    · cases hs
  case appEnd t =>
    split at hs
    · split at hs <;> cases hs
      · exact h.move (by rw [pgReps_snoc]; simp [PgObs.rep]) rfl h.before (fun hh => by rcases hh with hh | hh | hh | hh <;> cases hh)
          (fun a b d => ⟨⟨a, b, d⟩, rfl, rfl, rfl, rfl, rfl⟩)
      · exact h.move rfl rfl h.before (fun hh => by rcases hh with hh | hh | hh | hh <;> cases hh)
          (fun a b d => ⟨⟨a, b, d⟩, rfl, rfl, rfl, rfl, rfl⟩)
    · cases hs
  case appEndRet =>
    split at hs
    · cases hs
      exact h.move (by rw [pgReps_snoc]; simp [PgObs.rep]) rfl h.before (fun hh => by rcases hh with hh | hh | hh | hh <;> cases hh)
        (fun a b d => ⟨⟨a, b, d⟩, rfl, rfl, rfl, rfl, rfl⟩)
    · cases hs
  case trEntry =>
    split at hs
    · next ha => exact h.entry ha hs
    · cases hs
  case trWait =>
    split at hs
    · next ha => cases hs; exact tm _ (by simp [ha]) (by simp [ha]) (by simp [ha]) (by simp) (by simp) _ rfl
    · cases hs
  case trTimeout =>
    split at hs
    · next ha =>
      split at hs
      · cases hs; exact tm _ (by simp [ha]) (by simp [ha]) (by simp [ha]) (by simp) (by simp) _ rfl
      · cases hs
    · cases hs
  case trSpurious =>
    split at hs
    · next ha => cases hs; exact tm _ (by simp [ha]) (by simp [ha]) (by simp [ha]) (by simp) (by simp) _ rfl
    · cases hs
  case trTest =>
    split at hs
    · next ha =>
      split at hs <;> (cases hs; exact tm _ (by simp [ha]) (by simp [ha]) (by simp [ha]) (by simp) (by simp) _ rfl)
    · cases hs
  case trRead eff =>
    split at hs
    · next ha => cases hs; exact tm _ (by simp [ha]) (by simp [ha]) (by simp [ha]) (by simp) (by simp) _ rfl
    · cases hs
  case trReport =>
    split at hs
    · next eff ha => exact h.report ha hs
    · cases hs
  case trRet =>
    split at hs
    · next ha =>
      cases hs
      refine h.move (by rw [pgReps_snoc]; simp [PgObs.rep]) rfl (fun hh => by rcases hh with hh | hh <;> cases hh)
        (fun hh => absurd (h.early hh) (by simp [ha])) (fun a b d => ⟨⟨by simp [ha], by simp [ha], by simp [ha]⟩, rfl, rfl, rfl, rfl, rfl⟩)
    · cases hs

theorem PgNum.run {c : PgCfg} : ∀ {l : List PgEv} {s s' : PgSt}, PgNum c s → pgRun c s l = .ok s' → PgNum c s' := by
  intro l
  induction l with
  | nil => intro s s' h hr; cases hr; exact h
  | cons e l ih =>
    intro s s' h hr
    obtain ⟨s1, h1, h2⟩ := pgRun_cons hr
    exact ih (h.step h1) h2

/-! ### Time -/

/-- The clock is not set and nothing wakes up without a reason. -/
def PgEv.plain : PgEv → Bool
  | .setClock _ => false
  | .trSpurious => false
  | _ => true

/-- When the threads have been joined they are gone and the application is past that. -/
def PgLate (s : PgSt) : Prop :=
  s.status = .joined → s.alive = false ∧
    (s.app = .joinTracker ∨ s.app = .haveReport ∨ s.app = .inEnd ∨ s.app = .over)

theorem pgEntry_keep {c : PgCfg} {s s' : PgSt} (h : pgEntry c s = .ok s') :
    s'.status = s.status ∧ s'.alive = s.alive ∧ s'.now = s.now ∧ s'.wall = s.wall := by
  unfold pgEntry at h
  split at h
  · split at h
    · cases h; exact ⟨rfl, rfl, rfl, rfl⟩
    · cases h
  · split at h <;> (cases h; exact ⟨rfl, rfl, rfl, rfl⟩)

theorem pgReport_keep {s s' : PgSt} {eff : Int} (h : pgReport s eff = .ok s') :
    s'.status = s.status ∧ s'.alive = s.alive ∧ s'.now = s.now ∧ s'.wall = s.wall ∧ s'.t0 = s.t0 ∧
    ∃ cur, s'.obs = s.obs ++ [.progCall ⟨eff, s.wall, cur⟩] := by
  unfold pgReport at h
  split at h
  · split at h <;> (cases h; exact ⟨rfl, rfl, rfl, rfl, rfl, _, rfl⟩)
  · cases h

theorem PgLate.step {c : PgCfg} {s s' : PgSt} {e : PgEv} (h : PgLate s) (hs : pgStep c s e = .ok s') : PgLate s' := by
  cases e <;> dsimp only [pgStep] at hs
  case trEntry =>
    split at hs
    · obtain ⟨h1, h2, _⟩ := pgEntry_keep hs
      obtain ⟨h3, _⟩ := pgEntry_tr hs
      unfold PgLate; rw [h1, h2, h3]; exact h
    · cases hs
  case trReport =>
    split at hs
    · obtain ⟨h1, h2, _⟩ := pgReport_keep hs
      obtain ⟨h3, _⟩ := pgReport_tr hs
      unfold PgLate; rw [h1, h2, h3]; exact h
    · cases hs
  all_goals unfold PgLate at h ⊢
  all_goals (repeat' split at hs)
  all_goals first
    | (cases hs; done)
    | (cases hs; simp_all; done)

/-- The time of the latest report, or of the beginning. -/
def pgPrev (s : PgSt) : Int := timeAt s.t0 (pgReps s.obs) (pgReps s.obs).length

theorem pgPrev_snoc_none {s s' : PgSt} (o : PgObs) (ho : s'.obs = s.obs ++ [o]) (hr : o.rep = none) (ht : s'.t0 = s.t0) :
    pgPrev s' = pgPrev s := by
  unfold pgPrev
  rw [ho, pgReps_snoc, hr, ht]
  simp

/-- At least the interval passes between reports. -/
structure PgTime (c : PgCfg) (w0 : Int) (s : PgSt) : Prop where
  late : PgLate s
  clock : s.wall = w0 + s.now
  idle : s.tr = .wantLock ∨ s.tr = .inProgress → pgPrev s ≤ s.wall
  wait : ∀ d, s.tr = .waiting d → pgPrev s + msNs c.p ≤ w0 + d
  woken : s.tr = .woken → s.status = .joined ∨ pgPrev s + msNs c.p ≤ s.wall
  due : s.tr = .reading ∨ (∃ eff, s.tr = .got eff) → pgPrev s + msNs c.p ≤ s.wall
  apart : ∀ j, j < (pgReps s.obs).length →
    timeAt s.t0 (pgReps s.obs) j + msNs c.p ≤ timeAt s.t0 (pgReps s.obs) (j + 1)
  fresh : s.tr = .none ∨ s.tr = .entry → pgReps s.obs = []

theorem PgTime.init (c : PgCfg) (t : Int) : PgTime c t { wall := t } where
  late := by intro h; cases h
  clock := by simp
  idle := by intro h; rcases h with h | h <;> cases h
  wait := by intro d h; cases h
  woken := by intro h; cases h
  due := by intro h; rcases h with h | ⟨_, h⟩ <;> cases h
  apart := by intro j h; simp [pgReps] at h
  fresh := fun _ => rfl

theorem PgTime.step {c : PgCfg} {w0 : Int} {s s' : PgSt} {e : PgEv} (hn : PgNum c s) (h : PgTime c w0 s) (hpl : e.plain = true)
    (hs : pgStep c s e = .ok s') : PgTime c w0 s' := by
  have hl := h.late.step hs
  -- a change that leaves reports and tracker alone
  have same : ∀ s1 : PgSt, PgLate s1 → pgReps s1.obs = pgReps s.obs → s1.t0 = s.t0 → s1.tr = s.tr → s1.now = s.now →
      s1.wall = s.wall → (s.status = .joined → s1.status = .joined) → PgTime c w0 s1 := by
    intro s1 e0 e1 e2 e3 e4 e5 e6
    have ep : pgPrev s1 = pgPrev s := by unfold pgPrev; rw [e1, e2]
    refine ⟨e0, by rw [e4, e5]; exact h.clock, ?_, ?_, ?_, ?_, by rw [e1, e2]; exact h.apart, by rw [e1, e3]; exact h.fresh⟩
    · rw [e3, ep, e5]; exact h.idle
    · rw [e3, ep]; exact h.wait
    · rw [e3, ep, e5]; intro hw; rcases h.woken hw with hw | hw
      · exact .inl (e6 hw)
      · exact .inr hw
    · rw [e3, ep, e5]; exact h.due
  -- a move of the tracker
  have tm : ∀ s1 : PgSt, PgLate s1 → pgReps s1.obs = pgReps s.obs → s1.t0 = s.t0 → s1.now = s.now → s1.wall = s.wall →
      (s1.tr = .wantLock ∨ s1.tr = .inProgress → pgPrev s ≤ s.wall) →
      (∀ d, s1.tr = .waiting d → pgPrev s + msNs c.p ≤ w0 + d) →
      (s1.tr = .woken → s1.status = .joined ∨ pgPrev s + msNs c.p ≤ s.wall) →
      (s1.tr = .reading ∨ (∃ eff, s1.tr = .got eff) → pgPrev s + msNs c.p ≤ s.wall) →
      (s1.tr = .none ∨ s1.tr = .entry → pgReps s.obs = []) → PgTime c w0 s1 := by
    intro s1 e0 e1 e2 e4 e5 a1 a2 a3 a4 a5
    have ep : pgPrev s1 = pgPrev s := by unfold pgPrev; rw [e1, e2]
    exact ⟨e0, by rw [e4, e5]; exact h.clock, by rw [ep, e5]; exact a1, by rw [ep]; exact a2, by rw [ep, e5]; exact a3,
      by rw [ep, e5]; exact a4, by rw [e1, e2]; exact h.apart, by rw [e1]; exact a5⟩
  cases e <;> dsimp only [pgStep] at hs
  case setClock t => cases hpl
  case trSpurious => cases hpl
  case tick d =>
    cases hs
    have hc := h.clock
    refine ⟨hl, by dsimp only; push_cast; omega, ?_, ?_, ?_, ?_, h.apart, h.fresh⟩
    · intro ht; have := h.idle ht; change pgPrev s ≤ s.wall + d; omega
    · exact h.wait
    · intro ht
      change s.status = .joined ∨ pgPrev s + msNs c.p ≤ s.wall + d
      rcases h.woken ht with hw | hw
      · exact .inl hw
      · right; omega
    · intro ht; have := h.due ht; change pgPrev s + msNs c.p ≤ s.wall + d; omega
  case work =>
    split at hs <;> cases hs
    exact same _ hl (by rw [pgReps_snoc]; simp [PgObs.rep]) rfl rfl rfl rfl id
  case workersEnd =>
    split at hs
    · next ha =>
      cases hs
      refine same _ hl rfl rfl rfl rfl rfl (fun hj => ?_)
      have := (h.late hj).1
      rw [ha] at this; cases this
    · cases hs
  case appStart =>
    split at hs
    · next ha =>
      cases hs
      refine same _ hl rfl rfl rfl rfl rfl (fun hj => ?_)
      have := (h.late hj).2
      simp [ha] at this
    · split at hs
      · split at hs <;> cases hs; exact h
      · cases hs
  case appCallStart =>
    split at hs
    · split at hs <;> cases hs
      · exact same _ hl (by rw [pgReps_snoc]; simp [PgObs.rep]) rfl rfl rfl rfl id
      · exact same _ hl rfl rfl rfl rfl rfl id
    · cases hs
  case appStartRet =>
    split at hs <;> cases hs
    exact same _ hl (by rw [pgReps_snoc]; simp [PgObs.rep]) rfl rfl rfl rfl id
  case appMake =>
    split at hs
    · next ha =>
      cases hs
      refine tm _ hl rfl rfl rfl rfl ?_ ?_ ?_ ?_ ?_
      · intro ht; cases hmk : c.makes <;> simp [hmk] at ht
      · intro d ht; cases hmk : c.makes <;> simp [hmk] at ht
      · intro ht; cases hmk : c.makes <;> simp [hmk] at ht
      · intro ht; cases hmk : c.makes <;> simp [hmk] at ht
      · intro _; exact hn.before (.inl (hn.early (.inr (.inr (.inr ha)))))
    · cases hs
  case appFinish =>
    split at hs
    · cases hs; exact same _ hl rfl rfl rfl rfl rfl id
    · split at hs <;> cases hs; exact h
  case appJoined =>
    split at hs
    · cases hs
      refine tm _ hl (by rw [pgReps_snoc]; simp [PgObs.rep]) rfl rfl rfl ?_ ?_ ?_ ?_ ?_
      · intro ht; refine h.idle ?_; dsimp only at ht; cases htr : s.tr <;> simp_all
      · intro d ht; dsimp only at ht; cases htr : s.tr <;> simp_all
      · intro _; exact .inl rfl
      · intro ht; refine h.due ?_; dsimp only at ht; cases htr : s.tr <;> simp_all
      · intro ht; refine h.fresh ?_; dsimp only at ht; cases htr : s.tr <;> simp_all
    · cases hs
  case appTracker =>
    split at hs <;> cases hs
    exact same _ hl rfl rfl rfl rfl rfl id
  case appEnd t =>
    split at hs
    · split at hs <;> cases hs
      · exact same _ hl (by rw [pgReps_snoc]; simp [PgObs.rep]) rfl rfl rfl rfl id
      · exact same _ hl rfl rfl rfl rfl rfl id
    · cases hs
  case appEndRet =>
    split at hs <;> cases hs
    exact same _ hl (by rw [pgReps_snoc]; simp [PgObs.rep]) rfl rfl rfl rfl id
  case trEntry =>
    split at hs
    · next ha =>
      have h0 := h.fresh (.inr ha)
      obtain ⟨_, _, k3, k4⟩ := pgEntry_keep hs
      obtain ⟨_, q2, q3, _⟩ := pgEntry_tr hs
      have hprev : s'.tr = .wantLock → pgPrev s' ≤ s'.wall := by
        intro hw
        unfold pgPrev
        rw [q2, h0]
        simp only [List.length_nil, timeAt, if_pos]
        unfold pgEntry at hs
        split at hs
        · split at hs
          · cases hs; exact Int.le_refl _
          · cases hs
        · split at hs
          · cases hs; cases hw
          · cases hs; exact Int.le_refl _
      refine ⟨hl, by rw [k3, k4]; exact h.clock, ?_, ?_, ?_, ?_, ?_, ?_⟩
      · intro ht
        rcases ht with ht | ht
        · exact hprev ht
        · rcases q3 with q3 | q3 <;> (rw [q3] at ht; cases ht)
      · intro d ht; rcases q3 with q3 | q3 <;> (rw [q3] at ht; cases ht)
      · intro ht; rcases q3 with q3 | q3 <;> (rw [q3] at ht; cases ht)
      · intro ht; rcases ht with ht | ⟨_, ht⟩ <;> rcases q3 with q3 | q3 <;> (rw [q3] at ht; cases ht)
      · intro j hj; rw [q2, h0] at hj; simp at hj
      · intro _; rw [q2, h0]
    · cases hs
  case trWait =>
    split at hs
    · next ha =>
      cases hs
      refine tm _ hl rfl rfl rfl rfl ?_ ?_ ?_ ?_ ?_
      · intro ht; rcases ht with ht | ht <;> cases ht
      · intro d ht
        have := h.idle (.inl ha)
        have hc := h.clock
        cases ht
        push_cast
        omega
      · intro ht; cases ht
      · intro ht; rcases ht with ht | ⟨_, ht⟩ <;> cases ht
      · intro ht; rcases ht with ht | ht <;> cases ht
    · cases hs
  case trTimeout =>
    split at hs
    · next d ha =>
      split at hs
      · next hd =>
        cases hs
        refine tm _ hl rfl rfl rfl rfl ?_ ?_ ?_ ?_ ?_
        · intro ht; rcases ht with ht | ht <;> cases ht
        · intro d ht; cases ht
        · intro _
          right
          have := h.wait d ha
          have hc := h.clock
          omega
        · intro ht; rcases ht with ht | ⟨_, ht⟩ <;> cases ht
        · intro ht; rcases ht with ht | ht <;> cases ht
      · cases hs
    · cases hs
  case trTest =>
    split at hs
    · next ha =>
      split at hs
      · cases hs
        refine tm _ hl rfl rfl rfl rfl ?_ ?_ ?_ ?_ ?_
        · intro ht; rcases ht with ht | ht <;> cases ht
        · intro d ht; cases ht
        · intro ht; cases ht
        · intro ht; rcases ht with ht | ⟨_, ht⟩ <;> cases ht
        · intro ht; rcases ht with ht | ht <;> cases ht
      · next hj =>
        cases hs
        refine tm _ hl rfl rfl rfl rfl ?_ ?_ ?_ ?_ ?_
        · intro ht; rcases ht with ht | ht <;> cases ht
        · intro d ht; cases ht
        · intro ht; cases ht
        · intro _
          rcases h.woken ha with hw | hw
          · exact absurd hw hj
          · exact hw
        · intro ht; rcases ht with ht | ht <;> cases ht
    · cases hs
  case trRead eff =>
    split at hs
    · next ha =>
      cases hs
      refine tm _ hl rfl rfl rfl rfl ?_ ?_ ?_ ?_ ?_
      · intro ht; rcases ht with ht | ht <;> cases ht
      · intro d ht; cases ht
      · intro ht; cases ht
      · intro _; exact h.due (.inl ha)
      · intro ht; rcases ht with ht | ht <;> cases ht
    · cases hs
  case trReport =>
    split at hs
    · next eff ha =>
      have hdue := h.due (.inr ⟨eff, ha⟩)
      obtain ⟨_, _, k3, k4, k5, cur, k6⟩ := pgReport_keep hs
      obtain ⟨_, q2, _⟩ := pgReport_tr hs
      have hreps : pgReps s'.obs = pgReps s.obs ++ [⟨eff, s.wall, cur⟩] := by rw [k6, pgReps_snoc]; rfl
      have hlast : timeAt s.t0 (pgReps s'.obs) ((pgReps s.obs).length + 1) = s.wall := by rw [hreps, timeAt_last]
      refine ⟨hl, by rw [k3, k4]; exact h.clock, ?_, ?_, ?_, ?_, ?_, ?_⟩
      · intro _
        unfold pgPrev
        rw [k5, k4]
        have : (pgReps s'.obs).length = (pgReps s.obs).length + 1 := by rw [hreps]; simp
        rw [this, hlast]
      · intro d ht; rw [q2] at ht; cases ht
      · intro ht; rw [q2] at ht; cases ht
      · intro ht; rw [q2] at ht; rcases ht with ht | ⟨_, ht⟩ <;> cases ht
      · intro j hj
        have hlen : (pgReps s'.obs).length = (pgReps s.obs).length + 1 := by rw [hreps]; simp
        rw [hlen] at hj
        rw [k5]
        rcases Nat.lt_or_ge j (pgReps s.obs).length with hlt | hge
        · rw [hreps, timeAt_snoc _ _ _ _ (by omega), timeAt_snoc _ _ _ _ (by omega)]
          exact h.apart j hlt
        · have : j = (pgReps s.obs).length := by omega
          subst this
          rw [hlast, hreps, timeAt_snoc _ _ _ _ (Nat.le_refl _)]
          exact hdue
      · intro ht; rw [q2] at ht; rcases ht with ht | ht <;> cases ht
    · cases hs
  case trRet =>
    split at hs
    · next ha =>
      cases hs
      refine tm _ hl (by rw [pgReps_snoc]; simp [PgObs.rep]) rfl rfl rfl ?_ ?_ ?_ ?_ ?_
      · intro _; exact h.idle (.inr ha)
      · intro d ht; cases ht
      · intro ht; cases ht
      · intro ht; rcases ht with ht | ⟨_, ht⟩ <;> cases ht
      · intro ht; rcases ht with ht | ht <;> cases ht
    · cases hs

theorem PgTime.run {c : PgCfg} {w0 : Int} : ∀ {l : List PgEv} {s s' : PgSt}, PgNum c s → PgTime c w0 s →
    (∀ e ∈ l, e.plain = true) → pgRun c s l = .ok s' → PgTime c w0 s' := by
  intro l
  induction l with
  | nil => intro s s' _ h _ hr; cases hr; exact h
  | cons e l ih =>
    intro s s' hn h hp hr
    obtain ⟨s1, h1, h2⟩ := pgRun_cons hr
    exact ih (hn.step h1) (h.step hn (hp e List.mem_cons_self) h1) (fun e' he' => hp e' (List.mem_cons_of_mem _ he')) h2

theorem PgTime.span {c : PgCfg} {w0 : Int} {s : PgSt} (h : PgTime c w0 s) (j : Nat) : ∀ d, j + d ≤ (pgReps s.obs).length →
    timeAt s.t0 (pgReps s.obs) j + (d * msNs c.p : Nat) ≤ timeAt s.t0 (pgReps s.obs) (j + d) := by
  intro d
  induction d with
  | zero => intro _; simp
  | succ d ih =>
    intro hd
    have h1 := ih (by omega)
    have h2 := h.apart (j + d) (by omega)
    rw [show j + (d + 1) = j + d + 1 from rfl, Nat.succ_mul]
    push_cast at h1 ⊢
    omega

/-! ### The end -/

/-- Steps of the thread that reports. -/
def PgEv.ofTracker : PgEv → Bool
  | .trEntry => true
  | .trWait => true
  | .trTimeout => true
  | .trSpurious => true
  | .trTest => true
  | .trRead _ => true
  | .trReport => true
  | .trRet => true
  | _ => false

/-- How many steps of its own the thread that reports still takes when the others have been joined. -/
def PgTr.left : PgTr → Nat
  | .none => 0
  | .done => 0
  | .woken => 1
  | .waiting _ => 2
  | .wantLock => 3
  | .entry => 4
  | .inProgress => 4
  | .got _ => 5
  | .reading => 6

/-- How many calls of `progress` can still begin then. -/
def PgTr.calls : PgTr → Nat
  | .got _ => 1
  | .reading => 1
  | _ => 0

theorem pgStep_late {c : PgCfg} {s s' : PgSt} {e : PgEv} (hj : s.status = .joined) (hl : PgLate s)
    (hs : pgStep c s e = .ok s') :
    s'.status = .joined ∧ s'.tr.left + (if e.ofTracker then 1 else 0) ≤ s.tr.left ∧
    (pgReps s'.obs).length + s'.tr.calls = (pgReps s.obs).length + s.tr.calls := by
  obtain ⟨ha, happ⟩ := hl hj
  cases e <;> dsimp only [pgStep] at hs
  case trEntry =>
    split at hs
    · next htr =>
      obtain ⟨h1, _⟩ := pgEntry_keep hs
      obtain ⟨_, h2, h3, _⟩ := pgEntry_tr hs
      refine ⟨by rw [h1, hj], ?_, ?_⟩
      · rw [htr]; rcases h3 with h3 | h3 <;> rw [h3] <;> decide
      · rw [htr, h2]; rcases h3 with h3 | h3 <;> rw [h3] <;> rfl
    · cases hs
  case trReport =>
    split at hs
    · next eff htr =>
      obtain ⟨h1, _, _, _, _, cur, h2⟩ := pgReport_keep hs
      obtain ⟨_, h3, _⟩ := pgReport_tr hs
      refine ⟨by rw [h1, hj], by rw [htr, h3]; simp [PgTr.left, PgEv.ofTracker], ?_⟩
      rw [h2, h3, htr, pgReps_snoc]
      simp [PgObs.rep, PgTr.calls]
    · cases hs
  case appJoined =>
    split at hs
    · next hx => exfalso; rw [hx.1] at happ; simp at happ
    · cases hs
  case trTimeout =>
    split at hs
    · next d htr =>
      split at hs
      · cases hs; exact ⟨hj, by simp [htr, PgTr.left, PgEv.ofTracker], by simp [htr, PgTr.calls]⟩
      · cases hs
    · cases hs
  case trSpurious =>
    split at hs
    · next d htr => cases hs; exact ⟨hj, by simp [htr, PgTr.left, PgEv.ofTracker], by simp [htr, PgTr.calls]⟩
    · cases hs
  case trTest =>
    split at hs
    · next htr =>
      simp only [hj, if_true] at hs
      cases hs
      exact ⟨rfl, by simp [htr, PgTr.left, PgEv.ofTracker], by simp [htr, PgTr.calls]⟩
    · cases hs
  all_goals (repeat' split at hs)
  all_goals first
    | (cases hs; done)
    | (cases hs; simp_all [PgTr.left, PgTr.calls, PgEv.ofTracker, pgReps_snoc, PgObs.rep]; done)

theorem pgRun_late {c : PgCfg} : ∀ {l : List PgEv} {s s' : PgSt}, s.status = .joined → PgLate s → pgRun c s l = .ok s' →
    s'.tr.left + (l.filter PgEv.ofTracker).length ≤ s.tr.left ∧
    (pgReps s'.obs).length ≤ (pgReps s.obs).length + s.tr.calls := by
  intro l
  induction l with
  | nil => intro s s' _ _ hr; cases hr; simp
  | cons e l ih =>
    intro s s' hj hl hr
    obtain ⟨s1, h1, h2⟩ := pgRun_cons hr
    obtain ⟨a, b, d⟩ := pgStep_late hj hl h1
    obtain ⟨x, y⟩ := ih a (hl.step h1) h2
    refine ⟨?_, by omega⟩
    rw [List.filter_cons]
    split <;> simp_all <;> omega

theorem pgRun_append {c : PgCfg} : ∀ {l l' : List PgEv} {s s1 : PgSt}, pgRun c s l = .ok s1 →
    pgRun c s (l ++ l') = pgRun c s1 l' := by
  intro l
  induction l with
  | nil => intro l' s s1 h; cases h; rfl
  | cons e l ih =>
    intro l' s s1 h
    obtain ⟨s2, h1, h2⟩ := pgRun_cons h
    rw [List.cons_append, pgRun, h1]
    exact ih h2

theorem PgLate.run {c : PgCfg} : ∀ {l : List PgEv} {s s' : PgSt}, PgLate s → pgRun c s l = .ok s' → PgLate s' := by
  intro l
  induction l with
  | nil => intro s s' h hr; cases hr; exact h
  | cons e l ih =>
    intro s s' h hr
    obtain ⟨s1, h1, h2⟩ := pgRun_cons hr
    exact ih (h.step h1) h2

theorem pgReport_ok {c : PgCfg} {s : PgSt} (h : PgNum c s) (hf : fitsInt c.u = true) {eff : Int} (htr : s.tr = .got eff) :
    ∃ s', pgReport s eff = .ok s' := by
  have n1 : s.tr ≠ .none := by rw [htr]; simp
  have n2 : s.tr ≠ .entry := by rw [htr]; simp
  have n3 : s.tr ≠ .done := by rw [htr]; simp
  obtain ⟨hp, hu, _⟩ := h.opts n1 n2 n3
  have hk := h.count n1 n2 n3
  have hlt := Nat.mod_lt (pgReps s.obs).length (every_pos c)
  have hle : c.u.tdiv c.p ≤ c.u := by
    rw [Int.tdiv_eq_ediv_of_nonneg hu]
    exact Int.ediv_le_self _ hu
  have hE : pgEvery c = max 1 (c.u.tdiv c.p).toNat := rfl
  have hfit : fitsInt (s.k + 1) = true := by
    unfold fitsInt at hf ⊢
    simp only [decide_eq_true_eq] at hf ⊢
    rw [hk]
    generalize (pgReps s.obs).length % pgEvery c = r at hlt ⊢
    omega
  unfold pgReport
  rw [if_pos hfit]
  split <;> exact ⟨_, rfl⟩

theorem pgEntry_ok {c : PgCfg} {s : PgSt} (h : c.sender = true → 0 < c.p ∧ 0 ≤ c.u) : ∃ s', pgEntry c s = .ok s' := by
  unfold pgEntry
  split
  · next hs => rw [if_pos (h hs)]; exact ⟨_, rfl⟩
  · split <;> exact ⟨_, rfl⟩

/-- A sender has a thread that reports only if it is to report. -/
def PgMade (c : PgCfg) (s : PgSt) : Prop := s.tr = .entry → c.makes = true

theorem PgMade.step {c : PgCfg} {s s' : PgSt} {e : PgEv} (h : PgMade c s) (hs : pgStep c s e = .ok s') : PgMade c s' := by
  cases e <;> dsimp only [pgStep] at hs
  case trEntry =>
    split at hs
    · obtain ⟨_, _, h3, _⟩ := pgEntry_tr hs
      intro he; rcases h3 with h3 | h3 <;> (rw [h3] at he; cases he)
    · cases hs
  case trReport =>
    split at hs
    · obtain ⟨_, h3, _⟩ := pgReport_tr hs
      intro he; rw [h3] at he; cases he
    · cases hs
  case appMake =>
    split at hs
    · cases hs
      intro he
      dsimp only at he
      cases hm : c.makes
      · simp [hm] at he
      · rfl
    · cases hs
  case appJoined =>
    split at hs
    · cases hs
      intro he
      refine h ?_
      dsimp only at he
      cases htr : s.tr <;> simp_all
    · cases hs
  all_goals unfold PgMade at h ⊢
  all_goals (repeat' split at hs)
  all_goals first
    | (cases hs; done)
    | (cases hs; exact h)
    | (cases hs; simp_all; done)

/-- What the thread that reports needs to come to its end, with time passing as needed. -/
theorem pgTracker_ends {c : PgCfg} (hf : fitsInt c.u = true) (hu : c.sender = true → 0 ≤ c.u) : ∀ (n : Nat) (s : PgSt), s.tr.left ≤ n →
    s.status = .joined → PgLate s → PgNum c s → PgMade c s →
    ∃ l s', (∀ e ∈ l, e.ofTracker = true ∨ ∃ d, e = .tick d) ∧ pgRun c s l = .ok s' ∧ (s'.tr = .done ∨ s'.tr = .none) ∧
      s'.app = s.app := by
  intro n
  induction n with
  | zero =>
    intro s hn _ _ _ _
    refine ⟨[], s, by simp, rfl, ?_, rfl⟩
    cases htr : s.tr <;> simp_all [PgTr.left]
  | succ n ih =>
    intro s hn hj hl hnum hmd
    by_cases hd : s.tr = .done ∨ s.tr = .none
    · exact ⟨[], s, by simp, rfl, hd, rfl⟩
    -- one step of the tracker
    have go : ∀ (e : PgEv) (s1 : PgSt), e.ofTracker = true → s1.app = s.app → pgStep c s e = .ok s1 →
        ∃ l s', (∀ e ∈ l, e.ofTracker = true ∨ ∃ d, e = .tick d) ∧ pgRun c s l = .ok s' ∧ (s'.tr = .done ∨ s'.tr = .none) ∧
          s'.app = s.app := by
      intro e s1 he ha h1
      obtain ⟨a, b, _⟩ := pgStep_late hj hl h1
      rw [if_pos he] at b
      obtain ⟨l, s', p1, p2, p3, p4⟩ := ih s1 (by omega) a (hl.step h1) (hnum.step h1) (hmd.step h1)
      refine ⟨e :: l, s', ?_, ?_, p3, by rw [p4, ha]⟩
      · intro e' he'
        rcases List.mem_cons.1 he' with rfl | he'
        · exact .inl he
        · exact p1 e' he'
      · rw [pgRun, h1]; exact p2
    cases htr : s.tr with
    | none => exact absurd (.inr htr) hd
    | done => exact absurd (.inl htr) hd
    | entry =>
      obtain ⟨s1, h1⟩ := pgEntry_ok (c := c) (s := s) (fun hs => ⟨by
        have := hmd htr
        rw [PgCfg.makes, if_pos hs] at this
        simpa using this, hu hs⟩)
      exact go .trEntry s1 rfl (pgEntry_tr h1).1 (by simp [pgStep, htr, h1])
    | wantLock => exact go .trWait { s with tr := .waiting (s.now + msNs c.p) } rfl rfl (by simp [pgStep, htr])
    | woken => exact go .trTest { s with tr := .done } rfl rfl (by simp [pgStep, htr, hj])
    | reading => exact go (.trRead 0) { s with tr := .got 0 } rfl rfl (by simp [pgStep, htr])
    | inProgress =>
      exact go .trRet { s with tr := .wantLock, obs := s.obs ++ [.progRet] } rfl rfl (by simp [pgStep, htr])
    | got eff =>
      obtain ⟨s1, h1⟩ := pgReport_ok hnum hf htr
      exact go .trReport s1 rfl (pgReport_tr h1).1 (by simp [pgStep, htr, h1])
    | waiting d =>
      have h0 : pgStep c s (.tick d) = .ok { s with now := s.now + d, wall := s.wall + d } := rfl
      have h1 : pgStep c { s with now := s.now + d, wall := s.wall + d } .trTimeout =
          .ok { s with now := s.now + d, wall := s.wall + d, tr := .woken } := by
        simp [pgStep, htr]
      have hl0 := hl.step h0
      have hn0 := hnum.step h0
      have hm0 := hmd.step h0
      obtain ⟨a, b, _⟩ := pgStep_late (s := { s with now := s.now + d, wall := s.wall + d }) hj hl0 h1
      obtain ⟨l, s', p1, p2, p3, p4⟩ := ih { s with now := s.now + d, wall := s.wall + d, tr := .woken }
        (by simp [htr, PgTr.left] at hn ⊢; omega) hj (hl0.step h1) (hn0.step h1) (hm0.step h1)
      refine ⟨.tick d :: .trTimeout :: l, s', ?_, ?_, p3, p4⟩
      · intro e' he'
        rcases List.mem_cons.1 he' with rfl | he'
        · exact .inr ⟨d, rfl⟩
        · rcases List.mem_cons.1 he' with rfl | he'
          · exact .inl rfl
          · exact p1 e' he'
      · rw [pgRun, h0]
        dsimp only
        rw [pgRun, h1]
        exact p2

theorem PgMade.run {c : PgCfg} : ∀ {l : List PgEv} {s s' : PgSt}, PgMade c s → pgRun c s l = .ok s' → PgMade c s' := by
  intro l
  induction l with
  | nil => intro s s' h hr; cases hr; exact h
  | cons e l ih =>
    intro s s' h hr
    obtain ⟨s1, h1, h2⟩ := pgRun_cons hr
    exact ih (h.step h1) h2

theorem pgStep_reps {c : PgCfg} {s s' : PgSt} {e : PgEv} (hs : pgStep c s e = .ok s') :
    pgReps s'.obs = pgReps s.obs ∨ ∃ eff, s.tr = .got eff := by
  cases e <;> dsimp only [pgStep] at hs
  case trEntry =>
    split at hs
    · left; rw [(pgEntry_tr hs).2.1]
    · cases hs
  case trReport =>
    split at hs
    · next eff htr => exact .inr ⟨eff, htr⟩
    · cases hs
  all_goals left
  all_goals (repeat' split at hs)
  all_goals first
    | (cases hs; done)
    | (cases hs; rfl)
    | (cases hs; dsimp only; rw [pgReps_snoc]; exact List.append_nil _)

theorem pgRun_used {c : PgCfg} : ∀ {l : List PgEv} {s s' : PgSt}, PgNum c s → (pgReps s.obs ≠ [] → 0 < c.p) →
    pgRun c s l = .ok s' → pgReps s'.obs ≠ [] → 0 < c.p := by
  intro l
  induction l with
  | nil => intro s s' _ h hr; cases hr; exact h
  | cons e l ih =>
    intro s s' hn h hr
    obtain ⟨s1, h1, h2⟩ := pgRun_cons hr
    refine ih (hn.step h1) ?_ h2
    rcases pgStep_reps h1 with he | ⟨eff, he⟩
    · rw [he]; exact h
    · intro _; exact (hn.opts (by simp [he]) (by simp [he]) (by simp [he])).1

/-- Faults, in one step. -/
theorem pgStep_fault {c : PgCfg} {s : PgSt} {e : PgEv} {f : Fault} (hf : fitsInt c.u = true) (hn : PgNum c s) (hm : PgMade c s)
    (hs : pgStep c s e = .fault f) :
    f = .check ∧ ((c.sender = true ∧ 0 < c.p ∧ c.u < 0) ∨ (c.sender = false ∧ e = .appStart ∧ s.app ≠ .idle)) := by
  cases e <;> dsimp only [pgStep] at hs
  case trEntry =>
    split at hs
    · next htr =>
      have hmk := hm htr
      unfold pgEntry at hs
      split at hs
      · next hse =>
        split at hs
        · cases hs
        · next ho =>
          cases hs
          rw [PgCfg.makes, if_pos hse] at hmk
          have hp : 0 < c.p := by simpa using hmk
          exact ⟨rfl, .inl ⟨hse, hp, by omega⟩⟩
      · split at hs <;> cases hs
    · cases hs
  case trReport =>
    split at hs
    · next eff htr => obtain ⟨s1, h1⟩ := pgReport_ok hn hf htr; rw [h1] at hs; cases hs
    · cases hs
  case appStart =>
    split at hs
    · cases hs
    · next ha =>
      split at hs
      · split at hs
        · cases hs
        · next hse => cases hs; exact ⟨rfl, .inr ⟨by simpa using hse, rfl, ha⟩⟩
      · cases hs
  all_goals (repeat' split at hs)
  all_goals (cases hs)

theorem pgStep_app {c : PgCfg} {s s' : PgSt} {e : PgEv} (hs : pgStep c s e = .ok s') (h : s'.app ≠ .idle) :
    s.app ≠ .idle ∨ e = .appStart := by
  cases e <;> dsimp only [pgStep] at hs
  case appStart => exact .inr rfl
  case trEntry =>
    split at hs
    · left; rw [← (pgEntry_tr hs).1]; exact h
    · cases hs
  case trReport =>
    split at hs
    · left; rw [← (pgReport_tr hs).1]; exact h
    · cases hs
  all_goals left
  all_goals (repeat' split at hs)
  all_goals first
    | (cases hs; done)
    | (cases hs; exact h)
    | (cases hs; simp_all; done)

theorem pgRun_fault {c : PgCfg} (hf : fitsInt c.u = true) : ∀ {l : List PgEv} {s : PgSt} {f : Fault}, PgNum c s → PgMade c s →
    pgRun c s l = .fault f →
    f = .check ∧ ((c.sender = true ∧ 0 < c.p ∧ c.u < 0) ∨
      (c.sender = false ∧ (if s.app = .idle then 2 else 1) ≤ l.count .appStart)) := by
  intro l
  induction l with
  | nil => intro s f _ _ hr; cases hr
  | cons e l ih =>
    intro s f hn hm hr
    unfold pgRun at hr
    split at hr
    · next s1 h1 =>
      obtain ⟨a, b⟩ := ih (hn.step h1) (hm.step h1) hr
      refine ⟨a, ?_⟩
      rcases b with b | ⟨b1, b2⟩
      · exact .inl b
      · right
        refine ⟨b1, ?_⟩
        rw [List.count_cons]
        by_cases hid : s.app = .idle
        · rw [if_pos hid]
          by_cases hid1 : s1.app = .idle
          · rw [if_pos hid1] at b2; omega
          · rw [if_neg hid1] at b2
            rcases pgStep_app h1 hid1 with h' | h'
            · exact absurd hid h'
            · rw [h']; simp only [beq_self_eq_true, if_true]; omega
        · rw [if_neg hid]
          split at b2 <;> omega
    · next f' h1 =>
      cases hr
      obtain ⟨a, b⟩ := pgStep_fault hf hn hm h1
      refine ⟨a, ?_⟩
      rcases b with b | ⟨b1, b2, b3⟩
      · exact .inl b
      · right
        refine ⟨b1, ?_⟩
        rw [if_neg b3, b2]
        simp
    · cases hr

/-- While the thread that reports waits, so does `finish`. -/
theorem pgRun_waits {c : PgCfg} {d : Nat} : ∀ {l : List PgEv} {s s' : PgSt}, s.status = .joined → PgLate s →
    s.app = .joinTracker → s.tr = .waiting d → .trSpurious ∉ l → pgRun c s l = .ok s' → s'.app ≠ .joinTracker → d ≤ s'.now := by
  have mono : ∀ {l : List PgEv} {s s' : PgSt}, pgRun c s l = .ok s' → s.now ≤ s'.now := by
    intro l
    induction l with
    | nil => intro s s' hr; cases hr; exact Nat.le_refl _
    | cons e l ih =>
      intro s s' hr
      obtain ⟨s1, h1, h2⟩ := pgRun_cons hr
      refine Nat.le_trans ?_ (ih h2)
      cases e <;> dsimp only [pgStep] at h1
      case trEntry =>
        split at h1
        · rw [(pgEntry_keep h1).2.2.1]
        · cases h1
      case trReport =>
        split at h1
        · rw [(pgReport_keep h1).2.2.1]
        · cases h1
      all_goals (repeat' split at h1)
      all_goals first
        | (cases h1; done)
        | (cases h1; exact Nat.le_refl _)
        | (cases h1; exact Nat.le_add_right _ _)
  intro l
  induction l with
  | nil => intro s s' _ _ ha _ _ hr h; cases hr; exact absurd ha h
  | cons e l ih =>
    intro s s' hj hl ha htr hsp hr h
    obtain ⟨s1, h1, h2⟩ := pgRun_cons hr
    have hj1 := (pgStep_late hj hl h1).1
    have hl1 := hl.step h1
    have hsp1 : PgEv.trSpurious ∉ l := fun hh => hsp (List.mem_cons_of_mem _ hh)
    have hal := (hl hj).1
    cases e <;> dsimp only [pgStep] at h1
    case trSpurious => exact absurd List.mem_cons_self hsp
    case trTimeout =>
      rw [htr] at h1
      dsimp only at h1
      split at h1
      · next hd => have hm := mono h2; cases h1; exact Nat.le_trans hd hm
      · cases h1
    case tick n => cases h1; exact ih hj1 hl1 ha htr hsp1 h2 h
    case setClock n => cases h1; exact ih hj1 hl1 ha htr hsp1 h2 h
    all_goals simp [ha, htr, hal] at h1

/-- What has been joined stays so. -/
def PgPast (s : PgSt) : Prop := (.joined ∈ s.obs → s.status = .joined) ∧ (s.app = .joinTracker → s.status = .joined)

theorem PgPast.step {c : PgCfg} {s s' : PgSt} {e : PgEv} (hl : PgLate s) (h : PgPast s) (hs : pgStep c s e = .ok s') :
    PgPast s' := by
  obtain ⟨h1, h2⟩ := h
  have nojoin : s.app = .idle ∨ s.alive = true → s.status ≠ .joined := by
    intro ho hj
    obtain ⟨a, b⟩ := hl hj
    rcases ho with ho | ho
    · simp [ho] at b
    · rw [ho] at a; cases a
  cases e <;> dsimp only [pgStep] at hs
  case trEntry =>
    split at hs
    · unfold PgPast; rw [(pgEntry_tr hs).1, (pgEntry_tr hs).2.1, (pgEntry_keep hs).1]; exact ⟨h1, h2⟩
    · cases hs
  case trReport =>
    split at hs
    · obtain ⟨q1, _, _, _, _, cur, q2⟩ := pgReport_keep hs
      unfold PgPast; rw [(pgReport_tr hs).1, q1, q2]; exact ⟨by simpa using h1, h2⟩
    · cases hs
  case workersEnd =>
    split at hs
    · next ha =>
      have hnj := nojoin (.inr ha)
      cases hs
      exact ⟨fun hh => absurd (h1 hh) hnj, fun hh => absurd (h2 hh) hnj⟩
    · cases hs
  case appStart =>
    split at hs
    · next ha =>
      have hnj := nojoin (.inl ha)
      cases hs
      exact ⟨fun hh => absurd (h1 hh) hnj, fun hh => by cases hh⟩
    · split at hs
      · split at hs <;> cases hs; exact ⟨h1, h2⟩
      · cases hs
  all_goals unfold PgPast
  all_goals (repeat' split at hs)
  all_goals first
    | (cases hs; done)
    | (cases hs; exact ⟨h1, h2⟩)
    | (cases hs; simp_all; done)

theorem PgPast.run {c : PgCfg} : ∀ {l : List PgEv} {s s' : PgSt}, PgLate s → PgPast s → pgRun c s l = .ok s' → PgPast s' := by
  intro l
  induction l with
  | nil => intro s s' _ h hr; cases hr; exact h
  | cons e l ih =>
    intro s s' hl h hr
    obtain ⟨s1, h1, h2⟩ := pgRun_cons hr
    exact ih (hl.step h1) (h.step hl h1) h2

theorem PgPast.init (t : Int) : PgPast { wall := t } := ⟨(fun h => by cases h), (fun h => by cases h)⟩

end Wdt
