import Verif.Model.History
import Verif.Lemmas.SourceQueue
/-
Helper lemmas: weighted sums over everything the sender holds.
-/
namespace Wdt

/-- Sum of weights. -/
def sumOf {α : Type} (w : α → Int) (l : List α) : Int := (l.map w).sum

@[simp] theorem sumOf_nil {α : Type} (w : α → Int) : sumOf w [] = 0 := rfl

@[simp] theorem sumOf_cons {α : Type} (w : α → Int) (a : α) (l : List α) :
    sumOf w (a :: l) = w a + sumOf w l := by simp [sumOf]

@[simp] theorem sumOf_append {α : Type} (w : α → Int) (l m : List α) :
    sumOf w (l ++ m) = sumOf w l + sumOf w m := by simp [sumOf]

theorem sumOf_congr {α : Type} (w v : α → Int) (l : List α) (h : ∀ a ∈ l, w a = v a) : sumOf w l = sumOf v l := by
  unfold sumOf; rw [List.map_congr_left h]

theorem sumOf_map {α β : Type} (w : β → Int) (f : α → β) (l : List α) : sumOf w (l.map f) = sumOf (fun a => w (f a)) l := by
  unfold sumOf; rw [List.map_map]; rfl

theorem sumOf_perm {α : Type} (w : α → Int) {l m : List α} (h : l.Perm m) : sumOf w l = sumOf w m := by
  induction h with
  | nil => rfl
  | cons x _ ih => simp [ih]
  | swap x y l => simp; omega
  | trans _ _ ih1 ih2 => exact ih1.trans ih2

theorem sumOf_reverse {α : Type} (w : α → Int) (l : List α) : sumOf w l.reverse = sumOf w l :=
  sumOf_perm w (List.reverse_perm l)

theorem sumOf_set {α : Type} (w : α → Int) (l : List α) : ∀ (t : Nat) (a b : α), l[t]? = some a →
    sumOf w (l.set t b) + w a = sumOf w l + w b := by
  induction l with
  | nil => intro t a b h; simp at h
  | cons x xs ih =>
    intro t a b h
    cases t with
    | zero =>
      simp only [List.getElem?_cons_zero, Option.some.injEq] at h
      subst h
      simp; omega
    | succ t =>
      simp only [List.getElem?_cons_succ] at h
      have := ih t a b h
      simp only [List.set_cons_succ, sumOf_cons]; omega

theorem mem_set_cases {α : Type} (l : List α) (t : Nat) (b x : α) (h : x ∈ l.set t b) : x = b ∨ x ∈ l :=
  (List.mem_or_eq_of_mem_set h).symm

/-! ### Facts about checkpoints -/

theorem markFailed_key (s : Source) (ts : SrcStats) (cp : Option Checkpoint) : (markFailed s ts cp).1.key = s.key := by
  unfold markFailed advanceOffset Source.key
  simp only
  split <;> simp only [Prod.mk.injEq, true_and] <;> omega

theorem markFailed_offset (s : Source) (ts : SrcStats) (cp : Option Checkpoint) :
    (markFailed s ts cp).1.offset = s.offset + cpBytes s cp ∧ (markFailed s ts cp).1.size = s.size - cpBytes s cp ∧
    (markFailed s ts cp).1.name = s.name ∧ (markFailed s ts cp).1.seqId = s.seqId ∧
    (markFailed s ts cp).1.status = s.status ∧ (markFailed s ts cp).1.stats.failed = true := by
  unfold markFailed advanceOffset
  simp only
  split
  · rename_i h; exact ⟨rfl, rfl, rfl, rfl, rfl, h⟩
  · exact ⟨rfl, rfl, rfl, rfl, rfl, rfl⟩

theorem failBack_fst (cp : Checkpoint) : ∀ (l : List Source) (ts : SrcStats),
    (failBack cp l ts).1.map Prod.fst = l
  | [], _ => rfl
  | [_], _ => rfl
  | s :: r :: rest, ts => by
    have := failBack_fst cp (r :: rest) (markFailed s ts none).2
    simp only [failBack, List.map_cons]
    rw [this]

/-- Which checkpoint each block gets: only the last of the list gets it. -/
theorem failBack_pairs (cp : Checkpoint) : ∀ (l : List Source) (ts : SrcStats), ∀ p ∈ (failBack cp l ts).1,
    p.1 ∈ l ∧ ((∃ ts', p.2 = (markFailed p.1 ts' none).1) ∨
      (l.getLast? = some p.1 ∧ ∃ ts', p.2 = (markFailed p.1 ts' (some cp)).1))
  | [], _ => by intro p hp; cases hp
  | [s], ts => by
    intro p hp
    simp only [failBack, List.mem_singleton] at hp
    subst hp
    exact ⟨by simp, Or.inr ⟨rfl, ts, rfl⟩⟩
  | s :: r :: rest, ts => by
    intro p hp
    simp only [failBack, List.mem_cons] at hp
    rcases hp with rfl | hp
    · exact ⟨by simp, Or.inl ⟨ts, rfl⟩⟩
    · have := failBack_pairs cp (r :: rest) (markFailed s ts none).2 p hp
      refine ⟨List.mem_cons_of_mem _ this.1, ?_⟩
      rcases this.2 with h | ⟨h1, h2⟩
      · exact Or.inl h
      · exact Or.inr ⟨by rw [List.getLast?_cons_cons]; exact h1, h2⟩

/-- Shape of an accepted or refused checkpoint. -/
theorem setCheckpoint_ok (h : Hist) (cp : Checkpoint) (g : Bool) (code : CpRes) (h' : Hist)
    (l : List (Source × Source)) (hs : setCheckpoint h cp g = .ok (code, h', l)) :
    (code = .invalid ∧ h' = h ∧ l = []) ∨
    (code ≠ .invalid ∧ 0 ≤ cp.numBlocks ∧ cp.numBlocks ≤ h.history.length ∧
      (l, h'.stats) = failBack cp (h.history.drop cp.numBlocks.toNat).reverse h.stats ∧
      h'.history = h.history.take cp.numBlocks.toNat ∧ h'.numAcked = cp.numBlocks ∧
      h'.lastCp = some cp ∧ h'.globalCp = (h.globalCp || g) ∧ h'.inUse = h.inUse) := by
  unfold setCheckpoint at hs
  split at hs
  · simp only [Except.ok.injEq, Prod.mk.injEq] at hs
    obtain ⟨rfl, rfl, rfl⟩ := hs
    exact Or.inl ⟨rfl, rfl, rfl⟩
  · rename_i hle
    split at hs
    · simp at hs
    · simp only [Except.ok.injEq, Prod.mk.injEq] at hs
      obtain ⟨rfl, rfl, rfl⟩ := hs
      exact Or.inl ⟨rfl, rfl, rfl⟩
    · rename_i code' hnot hval
      split at hs
      · simp at hs
      · rename_i hnn
        simp only [Except.ok.injEq, Prod.mk.injEq] at hs
        obtain ⟨rfl, rfl, rfl⟩ := hs
        refine Or.inr ⟨?_, by omega, by omega, rfl, rfl, rfl, rfl, rfl, rfl⟩
        intro hc
        exact hnot hc

/-! ### Weighted sums preserved by every step -/

/-- A newly made block. -/
def FreshSrc (x : Source) : Prop := x.stats = {} ∧ (x.status = TO_BE_DELETED → x.size = 0)

theorem discoverFile_fresh {q q' : QState} {f : FileRec} {new : List Source}
    (h : discoverFile q f = .ok (q', new)) : ∀ x ∈ new, FreshSrc x := by
  unfold discoverFile at h
  obtain ⟨_, _, _, _, _, _, _, _, _, a, _⟩ := createInternal_ok _ _ _ _ h
  intro x hx
  exact ⟨(a x hx).2.2.2, fun hh => absurd hh (a x hx).2.1⟩

theorem deletions_fresh (q : QState) : ∀ x ∈ (enqueueDeletions q).2, FreshSrc x := by
  obtain ⟨extra, c1, _⟩ := enqueueDeletions_ok q
  intro x hx
  rw [c1, List.mem_map] at hx
  obtain ⟨i, _, rfl⟩ := hx
  exact ⟨rfl, fun _ => rfl⟩

theorem setPrev_fresh {q q' : QState} {infos : List FileChunksInfo} {new : List Source}
    (h : setPrev q infos = .ok (q', new)) : ∀ x ∈ new, FreshSrc x := by
  unfold setPrev at h
  split at h
  · simp at h
  · simp only at h
    split at h
    · simp at h
    · rename_i q2 s2 h2
      simp only [Except.ok.injEq, Prod.mk.injEq] at h
      obtain ⟨rfl, rfl⟩ := h
      obtain ⟨_, _, _, _, _, _, _, _, _, b10⟩ := recreateLoop_ok _ _ _ _ h2
      intro x hx
      rcases List.mem_append.1 hx with hx | hx
      · exact ⟨(b10 x hx).2, fun hh => absurd hh (b10 x hx).1⟩
      · exact deletions_fresh q2 x hx

/-- Weights of a block in each place, and the laws that make the total constant. -/
structure Pot where
  G : Source → Prop
  CG : Source → Option Checkpoint → Prop
  queueW : Source → Int
  openW : Source → Int
  curW : Source → Int
  histW : Source → Int
  failW : Source → Int
  createdW : Source → Int
  statW : SrcStats → Int
  credW : Credit → Int
  deqW : Int
  stat0 : statW {} = 0
  cg_none : ∀ x, CG x none
  g_create : ∀ x, FreshSrc x → G x
  g_open : ∀ x, G x → G (openedSource x)
  g_fail : ∀ x, G x → G (openFailedSource x)
  g_sent : ∀ x d, G x → G { x with stats := d }
  g_mark : ∀ x ts cp, G x → CG x cp → G (markFailed x ts cp).1
  create : ∀ x, FreshSrc x → queueW x = createdW x
  pop : ∀ x, queueW x = openW x
  openOk : ∀ x, G x → openW x = curW (openedSource x) + deqW
  openFail : ∀ x, G x → openW x = failW (openFailedSource x)
  sent : ∀ x o ts, G x → (x.stats.failed = true → x.status = TO_BE_DELETED) →
    curW x + statW ts = histW { x with stats := x.stats.add (sendStats x o) } + statW (ts.add (sendStats x o))
  mark : ∀ x ts cp, G x → CG x cp →
    histW x + statW ts = queueW (markFailed x ts cp).1 + statW (markFailed x ts cp).2 +
      credW (creditOf (x, (markFailed x ts cp).1)) - deqW

/-- Weight of a thread. -/
def Pot.thW (P : Pot) (th : SThread) : Int :=
  sumOf P.openW th.opening.toList + sumOf P.curW th.cur.toList + sumOf P.histW th.hist.history +
    P.statW th.hist.stats

/-- Total weight relative to what was created. -/
def Pot.total (P : Pot) (s : SSys) : Int :=
  sumOf P.queueW s.q.queue + sumOf P.failW s.q.failed + sumOf P.thW s.threads + sumOf P.credW s.credits +
    P.deqW * s.q.deq - sumOf P.createdW s.created

/-- Blocks a thread has. -/
def SThread.all (th : SThread) : List Source := th.opening.toList ++ th.cur.toList ++ th.hist.history

/-- All blocks of the sender. -/
def SSys.everywhere (s : SSys) : List Source := s.q.queue ++ s.threads.flatMap SThread.all ++ s.q.failed

structure PotInv (P : Pot) (s : SSys) : Prop where
  total : P.total s = 0
  good : ∀ x ∈ s.everywhere, P.G x
  cur : ∀ th ∈ s.threads, ∀ x, th.cur = some x → x.stats.failed = true → x.status = TO_BE_DELETED

/-- Condition on the checkpoints applied in a step. -/
def CpOK (P : Pot) (s : SSys) : SEvent → Prop
  | .localCp t cp => ∀ th, s.threads[t]? = some th → ∀ x ∈ th.hist.history, P.CG x (some cp)
  | .globalCp t cp => ∀ th, s.threads[t]? = some th → ∀ x ∈ th.hist.history, P.CG x (some cp)
  | .returnUnacked t => ∀ th, s.threads[t]? = some th →
      ∀ x ∈ th.hist.history, P.CG x (some { numBlocks := th.hist.numAcked })
  | .sent t o => ∀ th x, s.threads[t]? = some th → th.cur = some x → th.hist.globalCp = true →
      P.CG { x with stats := x.stats.add (sendStats x o) } th.hist.lastCp
  | _ => True

/-- Nothing was handed out yet. -/
def SFresh (s : SSys) : Prop :=
  s.q.failed = [] ∧ s.credits = [] ∧ s.q.deq = 0 ∧
  ∀ th ∈ s.threads, th.opening = none ∧ th.cur = none ∧ th.hist.history = [] ∧ th.hist.stats = {}

def SEvent.isPop : SEvent → Bool
  | .pop _ _ => true
  | _ => false

def SEvent.isSetPrev : SEvent → Bool
  | .setPrev _ => true
  | _ => false

theorem failBack_sum (P : Pot) (cp : Checkpoint) : ∀ (l : List Source) (ts : SrcStats),
    (∀ x ∈ l, P.G x) → (∀ x ∈ l, P.CG x (some cp)) →
    sumOf P.histW l + P.statW ts = sumOf P.queueW ((failBack cp l ts).1.map Prod.snd) +
      P.statW (failBack cp l ts).2 + sumOf P.credW ((failBack cp l ts).1.map creditOf) -
      P.deqW * l.length ∧ ∀ p ∈ (failBack cp l ts).1, P.G p.2
  | [], ts, _, _ => by constructor; (simp [failBack]); (intro p hp; cases hp)
  | [s], ts, hg, hc => by
    have hm := P.mark s ts (some cp) (hg s (by simp)) (hc s (by simp))
    constructor
    · simp only [failBack, List.map_cons, List.map_nil, sumOf_cons, sumOf_nil, List.length_singleton]
      simp only [Int.natCast_one, Int.mul_one]
      omega
    · intro p hp
      simp only [failBack, List.mem_singleton] at hp
      subst hp
      exact P.g_mark _ _ _ (hg s (by simp)) (hc s (by simp))
  | s :: r :: rest, ts, hg, hc => by
    have hm := P.mark s ts none (hg s (by simp)) (P.cg_none s)
    obtain ⟨ih, ihg⟩ := failBack_sum P cp (r :: rest) (markFailed s ts none).2
      (fun x hx => hg x (List.mem_cons_of_mem _ hx)) (fun x hx => hc x (List.mem_cons_of_mem _ hx))
    constructor
    · simp only [failBack, List.map_cons, sumOf_cons, List.length_cons] at ih ⊢
      simp only [Int.natCast_add, Int.natCast_one, Int.mul_add, Int.mul_one] at ih ⊢
      omega
    · intro p hp
      simp only [failBack, List.mem_cons] at hp
      rcases hp with rfl | hp
      · exact P.g_mark _ _ _ (hg s (by simp)) (P.cg_none s)
      · exact ihg p hp

theorem everywhere_mem {s : SSys} {x : Source} : x ∈ s.everywhere ↔
    x ∈ s.q.queue ∨ (∃ th ∈ s.threads, x ∈ th.all) ∨ x ∈ s.q.failed := by
  unfold SSys.everywhere
  simp only [List.mem_append, List.mem_flatMap, or_assoc]

theorem thread_mem {th : SThread} {x : Source} : x ∈ th.all ↔
    th.opening = some x ∨ th.cur = some x ∨ x ∈ th.hist.history := by
  unfold SThread.all
  simp only [List.mem_append, Option.mem_toList, or_assoc]

/-- Number of dequeued blocks is what the threads hold. -/
def heldCount (s : SSys) : Int := sumOf (fun th => (th.cur.toList.length + th.hist.history.length : Int)) s.threads

theorem giveBack_ok {s s' : SSys} {t : Nat} {th : SThread} {l : List (Source × Source)}
    (h : giveBack s t th l = .ok s') :
    s' = { s with q := { s.q with queue := s.q.queue ++ l.map Prod.snd, deq := s.q.deq - l.length },
                  threads := s.threads.set t th, credits := s.credits ++ l.map creditOf } := by
  unfold giveBack at h
  have key : ∀ (ss : List Source) (q q' : QState), returnToQueue q ss = .ok q' →
      q' = { q with queue := q.queue ++ ss, deq := q.deq - ss.length } := by
    intro ss
    induction ss with
    | nil =>
      intro q q' hq
      simp only [returnToQueue, Except.ok.injEq] at hq
      subst hq
      simp
    | cons a as ih =>
      intro q q' hq
      unfold returnToQueue at hq
      split at hq
      · have := ih _ _ hq
        rw [this]
        simp only [List.append_assoc, List.singleton_append, List.length_cons]
        congr 1
        simp only [Int.natCast_add, Int.natCast_one]; omega
      · simp at hq
  split at h
  · simp at h
  · rename_i q hq
    have := key _ _ _ hq
    simp only [Res.ok.injEq] at h
    rw [← h, this]
    simp only [List.length_map]

theorem Pot.giveBack_inv {P : Pot} {s s' : SSys} {t : Nat} {th th' : SThread} {l : List (Source × Source)}
    (hi : PotInv P s) (hth : s.threads[t]? = some th)
    (hbal : P.thW th = P.thW th' + sumOf P.queueW (l.map Prod.snd) + sumOf P.credW (l.map creditOf) -
      P.deqW * l.length)
    (hl : ∀ p ∈ l, P.G p.2) (hsub : ∀ x ∈ th'.all, P.G x)
    (hcur : ∀ x, th'.cur = some x → x.stats.failed = true → x.status = TO_BE_DELETED)
    (h : giveBack s t th' l = .ok s') : PotInv P s' := by
  have := giveBack_ok h
  subst this
  have hset := sumOf_set P.thW s.threads t th th' hth
  have htot := hi.total
  refine ⟨?_, ?_, ?_⟩
  · unfold Pot.total at htot ⊢
    simp only [sumOf_append]
    simp only [Int.mul_sub]
    omega
  · intro x hx
    rw [everywhere_mem] at hx
    rcases hx with hx | ⟨th2, h2, hx⟩ | hx
    · rcases List.mem_append.1 hx with hx | hx
      · exact hi.good x (everywhere_mem.2 (Or.inl hx))
      · rw [List.mem_map] at hx
        obtain ⟨p, hp, rfl⟩ := hx
        exact hl p hp
    · rcases mem_set_cases _ _ _ _ h2 with rfl | h2
      · exact hsub x hx
      · exact hi.good x (everywhere_mem.2 (Or.inr (Or.inl ⟨th2, h2, hx⟩)))
    · exact hi.good x (everywhere_mem.2 (Or.inr (Or.inr hx)))
  · intro th2 h2
    rcases mem_set_cases _ _ _ _ h2 with rfl | h2
    · exact hcur
    · exact hi.cur th2 h2

theorem Pot.applyCp_inv {P : Pot} {s s' : SSys} {t : Nat} {th : SThread} {cp : Checkpoint} {g : Bool}
    (hi : PotInv P s) (hth : s.threads[t]? = some th) (hc : ∀ x ∈ th.hist.history, P.CG x (some cp))
    (h : applyCp s t th (setCheckpoint th.hist cp g) = .ok s') : PotInv P s' := by
  unfold applyCp at h
  split at h
  · simp at h
  · rename_i code h' l hcp
    have hmem : th ∈ s.threads := List.mem_of_getElem? hth
    have hall : ∀ x ∈ th.all, P.G x := fun x hx =>
      hi.good x (everywhere_mem.2 (Or.inr (Or.inl ⟨th, hmem, hx⟩)))
    rcases setCheckpoint_ok _ _ _ _ _ _ hcp with ⟨_, rfl, rfl⟩ | ⟨_, h0, hle, hfb, hh, _⟩
    · refine Pot.giveBack_inv hi hth ?_ (by simp) ?_ ?_ h
      · simp
      · exact hall
      · exact hi.cur th hmem
    · have hG : ∀ x ∈ (th.hist.history.drop cp.numBlocks.toNat).reverse, P.G x ∧ P.CG x (some cp) := by
        intro x hx
        rw [List.mem_reverse] at hx
        have hx2 := List.mem_of_mem_drop hx
        exact ⟨hall x (thread_mem.2 (Or.inr (Or.inr hx2))), hc x hx2⟩
      obtain ⟨hsum, hg⟩ := failBack_sum P cp _ th.hist.stats (fun x hx => (hG x hx).1) (fun x hx => (hG x hx).2)
      have hl : l = (failBack cp (th.hist.history.drop cp.numBlocks.toNat).reverse th.hist.stats).1 :=
        congrArg Prod.fst hfb
      have hst : h'.stats = (failBack cp (th.hist.history.drop cp.numBlocks.toNat).reverse th.hist.stats).2 :=
        congrArg Prod.snd hfb
      have hlen : l.length = (th.hist.history.drop cp.numBlocks.toNat).reverse.length := by
        rw [hl]
        have := congrArg List.length (failBack_fst cp (th.hist.history.drop cp.numBlocks.toNat).reverse th.hist.stats)
        simpa using this
      refine Pot.giveBack_inv hi hth ?_ ?_ ?_ ?_ h
      · unfold Pot.thW
        simp only
        rw [hh, hst, hlen, hl]
        rw [sumOf_reverse] at hsum
        have hsplit : sumOf P.histW th.hist.history =
            sumOf P.histW (th.hist.history.take cp.numBlocks.toNat) +
            sumOf P.histW (th.hist.history.drop cp.numBlocks.toNat) := by
          rw [← sumOf_append, List.take_append_drop]
        omega
      · rw [hl]; exact hg
      · intro x hx
        rw [thread_mem] at hx
        rcases hx with hx | hx | hx
        · exact hall x (thread_mem.2 (Or.inl hx))
        · exact hall x (thread_mem.2 (Or.inr (Or.inl hx)))
        · simp only [hh] at hx
          exact hall x (thread_mem.2 (Or.inr (Or.inr (List.mem_of_mem_take hx))))
      · exact hi.cur th hmem

theorem openedSource_failed (x : Source) : (openedSource x).stats.failed = true → (openedSource x).status = TO_BE_DELETED := by
  unfold openedSource
  split
  · intro _; assumption
  · intro h; simp at h

/-- Installing a thread state of the same weight whose blocks are good. -/
theorem Pot.set_inv {P : Pot} {s : SSys} {q : QState} {t : Nat} {th th' : SThread}
    (hi : PotInv P s) (hth : s.threads[t]? = some th)
    (hbal : P.thW th + sumOf P.queueW s.q.queue + sumOf P.failW s.q.failed + P.deqW * s.q.deq =
      P.thW th' + sumOf P.queueW q.queue + sumOf P.failW q.failed + P.deqW * q.deq)
    (hq : ∀ x ∈ q.queue, P.G x) (hf : ∀ x ∈ q.failed, P.G x) (hsub : ∀ x ∈ th'.all, P.G x)
    (hcur : ∀ x, th'.cur = some x → x.stats.failed = true → x.status = TO_BE_DELETED) :
    PotInv P { s with q := q, threads := s.threads.set t th' } := by
  have hset := sumOf_set P.thW s.threads t th th' hth
  have htot := hi.total
  refine ⟨?_, ?_, ?_⟩
  · unfold Pot.total at htot ⊢
    simp only
    omega
  · intro x hx
    rw [everywhere_mem] at hx
    rcases hx with hx | ⟨th2, h2, hx⟩ | hx
    · exact hq x hx
    · rcases mem_set_cases _ _ _ _ h2 with rfl | h2
      · exact hsub x hx
      · exact hi.good x (everywhere_mem.2 (Or.inr (Or.inl ⟨th2, h2, hx⟩)))
    · exact hf x hx
  · intro th2 h2
    rcases mem_set_cases _ _ _ _ h2 with rfl | h2
    · exact hcur
    · exact hi.cur th2 h2

theorem sFresh_sum {P : Pot} {s : SSys} (h : SFresh s) : sumOf P.thW s.threads = 0 := by
  obtain ⟨_, _, _, h4⟩ := h
  have : ∀ l : List SThread, (∀ th ∈ l, th.opening = none ∧ th.cur = none ∧ th.hist.history = [] ∧ th.hist.stats = {}) →
      sumOf P.thW l = 0 := by
    intro l
    induction l with
    | nil => intro _; rfl
    | cons a as ih =>
      intro hl
      obtain ⟨e1, e2, e3, e4⟩ := hl a (by simp)
      rw [sumOf_cons, ih (fun th hth => hl th (by simp [hth]))]
      unfold Pot.thW
      rw [e1, e2, e3, e4, P.stat0]
      rfl
  exact this _ h4

/-- Every step keeps the total. -/
theorem Pot.step {P : Pot} {s s' : SSys} {e : SEvent} (hi : PotInv P s)
    (hset : e.isSetPrev = true → SFresh s) (hcp : CpOK P s e) (h : sStep s e = .ok s') : PotInv P s' := by
  have htot := hi.total
  cases e with
  | discover f =>
    simp only [sStep] at h
    split at h
    · simp at h
    · split at h
      · simp at h
      · rename_i q new hq
        simp only [Res.ok.injEq] at h
        subst h
        have hfr := discoverFile_fresh hq
        unfold discoverFile at hq
        obtain ⟨a1, a2, a3, _⟩ := createInternal_ok _ _ _ _ hq
        refine ⟨?_, ?_, hi.cur⟩
        · unfold Pot.total at htot ⊢
          simp only [a1, a2, a3, sumOf_append]
          have := sumOf_congr P.queueW P.createdW new (fun x hx => P.create x (hfr x hx))
          omega
        · intro x hx
          rw [everywhere_mem] at hx
          simp only [a1, a2, List.mem_append] at hx
          rcases hx with (hx | hx) | hx | hx
          · exact hi.good x (everywhere_mem.2 (Or.inl hx))
          · exact P.g_create x (hfr x hx)
          · exact hi.good x (everywhere_mem.2 (Or.inr (Or.inl hx)))
          · exact hi.good x (everywhere_mem.2 (Or.inr (Or.inr hx)))
  | finishDiscovery =>
    simp only [sStep] at h
    split at h
    · simp at h
    · simp only [Res.ok.injEq] at h
      subst h
      unfold finishDiscovery
      have hfr := deletions_fresh { s.q with initFinished := true }
      obtain ⟨extra, c1, c2, c3, c4, _⟩ := enqueueDeletions_ok { s.q with initFinished := true }
      rw [c1] at hfr
      refine ⟨?_, ?_, hi.cur⟩
      · unfold Pot.total at htot ⊢
        simp only [c1, c2, c3, c4, sumOf_append]
        have := sumOf_congr P.queueW P.createdW (extra.map deletionSource) (fun x hx => P.create x (hfr x hx))
        omega
      · intro x hx
        rw [everywhere_mem] at hx
        simp only [c2, c3, List.mem_append] at hx
        rcases hx with (hx | hx) | hx | hx
        · exact hi.good x (everywhere_mem.2 (Or.inl hx))
        · exact P.g_create x (hfr x hx)
        · exact hi.good x (everywhere_mem.2 (Or.inr (Or.inl hx)))
        · exact hi.good x (everywhere_mem.2 (Or.inr (Or.inr hx)))
  | setPrev infos =>
    have hf := hset rfl
    obtain ⟨f1, f2, f3, f4⟩ := hf
    simp only [sStep] at h
    split at h
    · simp at h
    · rename_i q new hq
      simp only [Res.ok.injEq] at h
      subst h
      have hfr := setPrev_fresh hq
      obtain ⟨b0, b1, b2, b3, _⟩ := setPrev_ok _ _ _ _ hq
      refine ⟨?_, ?_, hi.cur⟩
      · unfold Pot.total
        simp only [b1, b2, b3, f1, f2, f3, sumOf_nil, sFresh_sum (P := P) ⟨f1, f2, f3, f4⟩]
        have := sumOf_congr P.queueW P.createdW new (fun x hx => P.create x (hfr x hx))
        omega
      · intro x hx
        rw [everywhere_mem] at hx
        simp only [b1, b2, f1, List.not_mem_nil, or_false] at hx
        rcases hx with hx | ⟨th, hth, hx⟩
        · exact P.g_create x (hfr x hx)
        · obtain ⟨e1, e2, e3, _⟩ := f4 th hth
          rw [thread_mem, e1, e2, e3] at hx
          simp at hx
  | pop t x =>
    simp only [sStep] at h
    split at h
    · rename_i hh hth
      split at h
      · simp at h
      · split at h
        · simp at h
        · rename_i q hq
          simp only [Res.ok.injEq] at h
          subst h
          unfold popSource at hq
          split at hq
          · rename_i htop
            simp only [Option.some.injEq] at hq
            subst hq
            have hmem : x ∈ s.q.queue := by
              unfold IsTop at htop
              simp only [Bool.and_eq_true, List.contains_eq_mem, decide_eq_true_eq] at htop
              exact htop.1
            have hpe := sumOf_perm P.queueW (List.perm_cons_erase hmem)
            rw [sumOf_cons] at hpe
            have hgx : P.G x := hi.good x (everywhere_mem.2 (Or.inl hmem))
            refine Pot.set_inv hi hth ?_ ?_ ?_ ?_ ?_
            · unfold Pot.thW
              simp only [Option.toList_none, Option.toList_some, sumOf_nil, sumOf_cons]
              have := P.pop x
              omega
            · intro y hy
              exact hi.good y (everywhere_mem.2 (Or.inl (List.mem_of_mem_erase hy)))
            · intro y hy
              exact hi.good y (everywhere_mem.2 (Or.inr (Or.inr hy)))
            · intro y hy
              rw [thread_mem] at hy
              rcases hy with hy | hy | hy
              · simp only [Option.some.injEq] at hy
                subst hy; exact hgx
              · simp at hy
              · exact hi.good y (everywhere_mem.2 (Or.inr (Or.inl ⟨_, List.mem_of_getElem? hth,
                  thread_mem.2 (Or.inr (Or.inr hy))⟩)))
            · intro y hy; simp at hy
          · simp at hq
    · simp at h
  | openOk t =>
    simp only [sStep] at h
    split at h
    · rename_i hh x hth
      simp only [Res.ok.injEq] at h
      subst h
      have hall : ∀ y ∈ (⟨hh, some x, none⟩ : SThread).all, P.G y := fun y hy =>
        hi.good y (everywhere_mem.2 (Or.inr (Or.inl ⟨_, List.mem_of_getElem? hth, hy⟩)))
      have hgx : P.G x := hall x (thread_mem.2 (Or.inl rfl))
      refine Pot.set_inv hi hth ?_ ?_ ?_ ?_ ?_
      · unfold Pot.thW
        simp only [Option.toList_none, Option.toList_some, sumOf_nil, sumOf_cons]
        have := P.openOk x hgx
        simp only [Int.mul_add, Int.mul_one]
        omega
      · intro y hy
        exact hi.good y (everywhere_mem.2 (Or.inl hy))
      · intro y hy
        exact hi.good y (everywhere_mem.2 (Or.inr (Or.inr hy)))
      · intro y hy
        rw [thread_mem] at hy
        rcases hy with hy | hy | hy
        · simp at hy
        · simp only [Option.some.injEq] at hy
          subst hy; exact P.g_open x hgx
        · exact hall y (thread_mem.2 (Or.inr (Or.inr hy)))
      · intro y hy
        simp only [Option.some.injEq] at hy
        subst hy
        exact openedSource_failed x
    · simp at h
  | openFail t =>
    simp only [sStep] at h
    split at h
    · rename_i hh x hth
      simp only [Res.ok.injEq] at h
      subst h
      have hall : ∀ y ∈ (⟨hh, some x, none⟩ : SThread).all, P.G y := fun y hy =>
        hi.good y (everywhere_mem.2 (Or.inr (Or.inl ⟨_, List.mem_of_getElem? hth, hy⟩)))
      have hgx : P.G x := hall x (thread_mem.2 (Or.inl rfl))
      refine Pot.set_inv hi hth ?_ ?_ ?_ ?_ ?_
      · unfold Pot.thW
        simp only [Option.toList_none, Option.toList_some, sumOf_nil, sumOf_cons, sumOf_append]
        have := P.openFail x hgx
        omega
      · intro y hy
        exact hi.good y (everywhere_mem.2 (Or.inl hy))
      · intro y hy
        rcases List.mem_append.1 hy with hy | hy
        · exact hi.good y (everywhere_mem.2 (Or.inr (Or.inr hy)))
        · rw [List.mem_singleton] at hy
          subst hy; exact P.g_fail x hgx
      · intro y hy
        rw [thread_mem] at hy
        rcases hy with hy | hy | hy
        · simp at hy
        · simp at hy
        · exact hall y (thread_mem.2 (Or.inr (Or.inr hy)))
      · intro y hy; simp at hy
    · simp at h
  | sent t o =>
    simp only [sStep] at h
    split at h
    · rename_i hh x hth
      have hmem := List.mem_of_getElem? hth
      have hall : ∀ y ∈ (⟨hh, none, some x⟩ : SThread).all, P.G y := fun y hy =>
        hi.good y (everywhere_mem.2 (Or.inr (Or.inl ⟨_, hmem, hy⟩)))
      have hgx : P.G x := hall x (thread_mem.2 (Or.inr (Or.inl rfl)))
      have hgx' : P.G { x with stats := x.stats.add (sendStats x o) } := P.g_sent x _ hgx
      have hs := P.sent x o hh.stats hgx (hi.cur _ hmem x rfl)
      unfold addSource at h
      cases hg : hh.globalCp with
      | true =>
        simp only [hg, if_true] at h
        have hcg := hcp _ x hth rfl hg
        have hm := P.mark { x with stats := x.stats.add (sendStats x o) } (hh.stats.add (sendStats x o)) hh.lastCp
          hgx' hcg
        refine Pot.giveBack_inv hi hth ?_ ?_ ?_ ?_ h
        · unfold Pot.thW
          simp only [Option.toList_none, Option.toList_some, sumOf_nil, sumOf_cons, List.map_cons, List.map_nil,
            List.length_singleton, Int.natCast_one, Int.mul_one]
          omega
        · intro p hp
          rw [List.mem_singleton] at hp
          subst hp
          exact P.g_mark _ _ _ hgx' hcg
        · intro y hy
          rw [thread_mem] at hy
          rcases hy with hy | hy | hy
          · simp at hy
          · simp at hy
          · exact hall y (thread_mem.2 (Or.inr (Or.inr hy)))
        · intro y hy; simp at hy
      | false =>
        simp only [hg, Bool.false_eq_true, if_false] at h
        refine Pot.giveBack_inv hi hth ?_ (by simp) ?_ ?_ h
        · unfold Pot.thW
          simp only [Option.toList_none, Option.toList_some, sumOf_nil, sumOf_cons, sumOf_append, List.map_nil,
            List.length_nil, Int.natCast_zero, Int.mul_zero]
          omega
        · intro y hy
          rw [thread_mem] at hy
          rcases hy with hy | hy | hy
          · simp at hy
          · simp at hy
          · rcases List.mem_append.1 hy with hy | hy
            · exact hall y (thread_mem.2 (Or.inr (Or.inr hy)))
            · rw [List.mem_singleton] at hy
              subst hy; exact hgx'
        · intro y hy; simp at hy
    · simp at h
  | localCp t cp =>
    simp only [sStep] at h
    split at h
    · rename_i th hth
      split at h
      · simp at h
      · exact Pot.applyCp_inv hi hth (hcp th hth) h
    · simp at h
  | globalCp t cp =>
    simp only [sStep] at h
    split at h
    · rename_i th hth
      exact Pot.applyCp_inv hi hth (hcp th hth) h
    · simp only [Res.ok.injEq] at h
      subst h; exact hi
  | markAll t =>
    simp only [sStep] at h
    split at h
    · rename_i th hth
      simp only [Res.ok.injEq] at h
      subst h
      have hmem := List.mem_of_getElem? hth
      refine Pot.set_inv (q := s.q) hi hth rfl ?_ ?_ ?_ ?_
      · intro y hy
        exact hi.good y (everywhere_mem.2 (Or.inl hy))
      · intro y hy
        exact hi.good y (everywhere_mem.2 (Or.inr (Or.inr hy)))
      · intro y hy
        exact hi.good y (everywhere_mem.2 (Or.inr (Or.inl ⟨th, hmem, hy⟩)))
      · exact hi.cur th hmem
    · simp at h
  | returnUnacked t =>
    simp only [sStep] at h
    split at h
    · rename_i th hth
      unfold returnUnacked at h
      exact Pot.applyCp_inv hi hth (hcp th hth) h
    · simp at h
  | exit t =>
    simp only [sStep] at h
    split at h
    · rename_i th hth
      split at h
      · simp at h
      · simp only [Res.ok.injEq] at h
        subst h
        have hmem := List.mem_of_getElem? hth
        refine Pot.set_inv (q := s.q) hi hth rfl ?_ ?_ ?_ ?_
        · intro y hy
          exact hi.good y (everywhere_mem.2 (Or.inl hy))
        · intro y hy
          exact hi.good y (everywhere_mem.2 (Or.inr (Or.inr hy)))
        · intro y hy
          exact hi.good y (everywhere_mem.2 (Or.inr (Or.inl ⟨th, hmem, hy⟩)))
        · exact hi.cur th hmem
    · simp at h

/-! ### Runs -/

/-- The receiver's file list comes before the first block is handed out (see
`ListFirst`). -/
def SListFirst (evs : List SEvent) : Prop :=
  evs.Pairwise fun a b => ¬ (a.isPop = true ∧ b.isSetPrev = true)

/-- A condition on every step of a run. -/
def Along (R : SSys → SEvent → Prop) : SSys → List SEvent → Prop
  | _, [] => True
  | s, e :: es => R s e ∧ ∀ s', sStep s e = .ok s' → Along R s' es

theorem fresh_applyCp {s s' : SSys} {t : Nat} {th : SThread} {cp : Checkpoint} {g : Bool} (hf : SFresh s)
    (hth : s.threads[t]? = some th) (h : applyCp s t th (setCheckpoint th.hist cp g) = .ok s') : SFresh s' := by
  obtain ⟨f1, f2, f3, f4⟩ := hf
  obtain ⟨e1, e2, e3, e4⟩ := f4 th (List.mem_of_getElem? hth)
  unfold applyCp at h
  split at h
  · simp at h
  · rename_i code h' l hcp
    have key : l = [] ∧ h'.history = [] ∧ h'.stats = {} := by
      rcases setCheckpoint_ok _ _ _ _ _ _ hcp with ⟨_, rfl, rfl⟩ | ⟨_, h0, hle, hfb, hh, _⟩
      · exact ⟨rfl, e3, e4⟩
      · rw [e3] at hfb hh
        simp only [List.drop_nil, List.reverse_nil, failBack, Prod.mk.injEq] at hfb
        refine ⟨hfb.1, by rw [hh]; simp, by rw [hfb.2, e4]⟩
    obtain ⟨k1, k2, k3⟩ := key
    subst k1
    have := giveBack_ok h
    subst this
    refine ⟨f1, by simp [f2], by simp [f3], ?_⟩
    intro th2 h2
    rcases mem_set_cases _ _ _ _ h2 with rfl | h2
    · exact ⟨e1, e2, k2, k3⟩
    · exact f4 th2 h2

theorem sFresh_step {s s' : SSys} {e : SEvent} (hf : SFresh s) (hp : e.isPop = false)
    (h : sStep s e = .ok s') : SFresh s' := by
  have hf0 := hf
  obtain ⟨f1, f2, f3, f4⟩ := hf
  cases e with
  | discover f =>
    simp only [sStep] at h
    split at h
    · simp at h
    · split at h
      · simp at h
      · rename_i q new hq
        simp only [Res.ok.injEq] at h
        subst h
        unfold discoverFile at hq
        obtain ⟨a1, a2, a3, _⟩ := createInternal_ok _ _ _ _ hq
        exact ⟨by simp only [a2]; exact f1, f2, by simp only [a3]; exact f3, f4⟩
  | finishDiscovery =>
    simp only [sStep] at h
    split at h
    · simp at h
    · simp only [Res.ok.injEq] at h
      subst h
      unfold finishDiscovery
      obtain ⟨extra, c1, c2, c3, c4, _⟩ := enqueueDeletions_ok { s.q with initFinished := true }
      exact ⟨by simp only [c3]; exact f1, f2, by simp only [c4]; exact f3, f4⟩
  | setPrev infos =>
    simp only [sStep] at h
    split at h
    · simp at h
    · rename_i q new hq
      simp only [Res.ok.injEq] at h
      subst h
      obtain ⟨b0, b1, b2, b3, _⟩ := setPrev_ok _ _ _ _ hq
      exact ⟨by simp only [b2]; exact f1, f2, by simp only [b3]; exact f3, f4⟩
  | pop t x => simp [SEvent.isPop] at hp
  | openOk t =>
    simp only [sStep] at h
    split at h
    · rename_i hh x hth
      have := (f4 _ (List.mem_of_getElem? hth)).1
      simp at this
    · simp at h
  | openFail t =>
    simp only [sStep] at h
    split at h
    · rename_i hh x hth
      have := (f4 _ (List.mem_of_getElem? hth)).1
      simp at this
    · simp at h
  | sent t o =>
    simp only [sStep] at h
    split at h
    · rename_i hh x hth
      have := (f4 _ (List.mem_of_getElem? hth)).2.1
      simp at this
    · simp at h
  | localCp t cp =>
    simp only [sStep] at h
    split at h
    · rename_i th hth
      split at h
      · simp at h
      · exact fresh_applyCp hf0 hth h
    · simp at h
  | globalCp t cp =>
    simp only [sStep] at h
    split at h
    · rename_i th hth
      exact fresh_applyCp hf0 hth h
    · simp only [Res.ok.injEq] at h
      subst h; exact hf0
  | markAll t =>
    simp only [sStep] at h
    split at h
    · rename_i th hth
      simp only [Res.ok.injEq] at h
      subst h
      refine ⟨f1, f2, f3, ?_⟩
      intro th2 h2
      rcases mem_set_cases _ _ _ _ h2 with rfl | h2
      · exact f4 th (List.mem_of_getElem? hth)
      · exact f4 th2 h2
    · simp at h
  | returnUnacked t =>
    simp only [sStep] at h
    split at h
    · rename_i th hth
      exact fresh_applyCp hf0 hth h
    · simp at h
  | exit t =>
    simp only [sStep] at h
    split at h
    · rename_i th hth
      split at h
      · simp at h
      · simp only [Res.ok.injEq] at h
        subst h
        refine ⟨f1, f2, f3, ?_⟩
        intro th2 h2
        rcases mem_set_cases _ _ _ _ h2 with rfl | h2
        · exact f4 th (List.mem_of_getElem? hth)
        · exact f4 th2 h2
    · simp at h

theorem Pot.run (P : Pot) (evs : List SEvent) : ∀ (s s' : SSys), PotInv P s → SListFirst evs →
    (∀ e ∈ evs, e.isSetPrev = true → SFresh s) → Along (CpOK P) s evs → sRun s evs = .ok s' → PotInv P s' := by
  induction evs with
  | nil =>
    intro s s' hi _ _ _ h
    simp only [sRun, Res.ok.injEq] at h
    subst h; exact hi
  | cons e evs ih =>
    intro s s' hi hl hset hal h
    unfold sRun at h
    split at h
    · rename_i s1 h1
      unfold SListFirst at hl
      rw [List.pairwise_cons] at hl
      refine ih s1 s' (Pot.step hi (fun he => hset e (by simp) he) hal.1 h1) hl.2 ?_ (hal.2 s1 h1) h
      intro e' he' hs'
      refine sFresh_step (hset e' (by simp [he']) hs') ?_ h1
      cases hpop : e.isPop with
      | false => rfl
      | true => exact absurd ⟨hpop, hs'⟩ (hl.1 e' he')
    · simp at h
    · simp at h

theorem SFresh.init (mb : Int) (del : Bool) (n : Nat) : SFresh (SSys.init mb del n) := by
  refine ⟨rfl, rfl, rfl, ?_⟩
  intro th hth
  simp only [SSys.init, List.mem_replicate] at hth
  rw [hth.2]
  exact ⟨rfl, rfl, rfl, rfl⟩

theorem Pot.init (P : Pot) (mb : Int) (del : Bool) (n : Nat) : PotInv P (SSys.init mb del n) := by
  have hf := SFresh.init mb del n
  refine ⟨?_, ?_, ?_⟩
  · unfold Pot.total
    rw [sFresh_sum hf]
    simp [SSys.init]
  · intro x hx
    rw [everywhere_mem] at hx
    rcases hx with hx | ⟨th, hth, hx⟩ | hx
    · cases hx
    · obtain ⟨e1, e2, e3, _⟩ := hf.2.2.2 th hth
      rw [thread_mem, e1, e2, e3] at hx
      simp at hx
    · cases hx
  · intro th hth x hx
    obtain ⟨_, e2, _⟩ := hf.2.2.2 th hth
    rw [e2] at hx
    simp at hx

/-- The total is constant over every run from the start. -/
theorem Pot.final (P : Pot) (mb : Int) (del : Bool) (n : Nat) (evs : List SEvent) (s : SSys)
    (hl : SListFirst evs) (hal : Along (CpOK P) (SSys.init mb del n) evs)
    (h : sRun (SSys.init mb del n) evs = .ok s) : PotInv P s :=
  P.run evs _ s (P.init mb del n) hl (fun _ _ _ => SFresh.init mb del n) hal h

theorem Along.mono {R S : SSys → SEvent → Prop} (hRS : ∀ s e, R s e → S s e) (evs : List SEvent) :
    ∀ s, Along R s evs → Along S s evs := by
  induction evs with
  | nil => intro s _; trivial
  | cons e evs ih => intro s h; exact ⟨hRS s e h.1, fun s' hs' => ih s' (h.2 s' hs')⟩

/-- A condition that follows from an invariant holds along every run. -/
theorem Along.of_inv {R : SSys → SEvent → Prop} (I : SSys → Prop) (E : SEvent → Prop)
    (hR : ∀ s e, I s → E e → R s e) (hI : ∀ s e s', I s → E e → sStep s e = .ok s' → I s') (evs : List SEvent) :
    ∀ s, I s → (∀ e ∈ evs, E e) → Along R s evs := by
  induction evs with
  | nil => intro s _ _; trivial
  | cons e evs ih =>
    intro s hs he
    exact ⟨hR s e hs (he e (by simp)), fun s' h => ih s' (hI s e s' hs (he e (by simp)) h)
      (fun e' h' => he e' (by simp [h']))⟩

/-- Checkpoints as the decoder delivers them: counts are not negative
(`decodeInt64C` rejects anything above INT64_MAX, Protocol.cpp:212-254). -/
def CpNonneg (cp : Checkpoint) : Prop := 0 ≤ cp.numBlocks ∧ 0 ≤ cp.lastBlockReceivedBytes

/-- Steps whose checkpoints satisfy `C`. -/
def SEvent.Cps (C : Checkpoint → Prop) : SEvent → Prop
  | .localCp _ cp => C cp
  | .globalCp _ cp => C cp
  | _ => True

/-- Steps whose checkpoints come from the decoder. -/
abbrev SEvent.NonNeg (e : SEvent) : Prop := e.Cps CpNonneg

/-- Counts are in range; stored checkpoints satisfy `C` and report no more blocks than
are acknowledged. -/
def Stored (C : Checkpoint → Prop) (s : SSys) : Prop :=
  ∀ th ∈ s.threads, 0 ≤ th.hist.numAcked ∧ th.hist.numAcked ≤ th.hist.history.length ∧
    ∀ c, th.hist.lastCp = some c → C c ∧ c.numBlocks ≤ th.hist.numAcked

abbrev StoredNonneg (s : SSys) : Prop := Stored CpNonneg s

theorem stored_set {C : Checkpoint → Prop} {s : SSys} {t : Nat} {th' : SThread} {q : QState}
    {cr : List Credit} (hs : Stored C s)
    (h' : 0 ≤ th'.hist.numAcked ∧ th'.hist.numAcked ≤ th'.hist.history.length ∧
      ∀ c, th'.hist.lastCp = some c → C c ∧ c.numBlocks ≤ th'.hist.numAcked) :
    Stored C { s with q := q, threads := s.threads.set t th', credits := cr } := by
  intro th2 h2
  rcases mem_set_cases _ _ _ _ h2 with rfl | h2
  · exact h'
  · exact hs th2 h2

theorem stored_applyCp {C : Checkpoint → Prop} {s s' : SSys} {t : Nat} {th : SThread} {cp : Checkpoint} {g : Bool}
    (hs : Stored C s) (hth : s.threads[t]? = some th) (hcp : C cp)
    (h : applyCp s t th (setCheckpoint th.hist cp g) = .ok s') : Stored C s' := by
  unfold applyCp at h
  split at h
  · simp at h
  · rename_i code h' l hc
    have := giveBack_ok h
    subst this
    refine stored_set hs ?_
    rcases setCheckpoint_ok _ _ _ _ _ _ hc with ⟨_, rfl, rfl⟩ | ⟨_, h0, hle, hfb, hh, ha, hcp', _⟩
    · exact hs th (List.mem_of_getElem? hth)
    · refine ⟨by rw [ha]; exact h0, ?_, ?_⟩
      · simp only [ha, hh, List.length_take]; omega
      · intro c hc'
        simp only [hcp', Option.some.injEq] at hc'
        subst hc'; exact ⟨hcp, by rw [ha]; omega⟩

theorem stored_step {C : Checkpoint → Prop} (hC : ∀ a, 0 ≤ a → C { numBlocks := a }) {s s' : SSys} {e : SEvent}
    (hs : Stored C s) (he : e.Cps C) (h : sStep s e = .ok s') : Stored C s' := by
  cases e with
  | discover f =>
    simp only [sStep] at h
    split at h
    · simp at h
    · split at h
      · simp at h
      · simp only [Res.ok.injEq] at h
        subst h; exact hs
  | finishDiscovery =>
    simp only [sStep] at h
    split at h
    · simp at h
    · simp only [Res.ok.injEq] at h
      subst h; exact hs
  | setPrev infos =>
    simp only [sStep] at h
    split at h
    · simp at h
    · simp only [Res.ok.injEq] at h
      subst h; exact hs
  | pop t x =>
    simp only [sStep] at h
    split at h
    · rename_i hh hth
      split at h
      · simp at h
      · split at h
        · simp at h
        · simp only [Res.ok.injEq] at h
          subst h
          exact stored_set hs (by have := hs _ (List.mem_of_getElem? hth); exact this)
    · simp at h
  | openOk t =>
    simp only [sStep] at h
    split at h
    · rename_i hh x hth
      simp only [Res.ok.injEq] at h
      subst h
      exact stored_set hs (by have := hs _ (List.mem_of_getElem? hth); exact this)
    · simp at h
  | openFail t =>
    simp only [sStep] at h
    split at h
    · rename_i hh x hth
      simp only [Res.ok.injEq] at h
      subst h
      exact stored_set hs (by have := hs _ (List.mem_of_getElem? hth); exact this)
    · simp at h
  | sent t o =>
    simp only [sStep] at h
    split at h
    · rename_i hh x hth
      have hx := hs _ (List.mem_of_getElem? hth)
      have := giveBack_ok h
      subst this
      refine stored_set hs ?_
      unfold addSource
      cases hg : hh.globalCp with
      | true => simp only [if_true]; exact ⟨hx.1, hx.2.1, by simp⟩
      | false =>
        simp only [Bool.false_eq_true, if_false]
        refine ⟨hx.1, ?_, hx.2.2⟩
        have := hx.2.1
        simp only [List.length_append, List.length_singleton, Int.natCast_add, Int.natCast_one] at this ⊢
        omega
    · simp at h
  | localCp t cp =>
    simp only [sStep] at h
    split at h
    · rename_i th hth
      split at h
      · simp at h
      · exact stored_applyCp hs hth he h
    · simp at h
  | globalCp t cp =>
    simp only [sStep] at h
    split at h
    · rename_i th hth
      exact stored_applyCp hs hth he h
    · simp only [Res.ok.injEq] at h
      subst h; exact hs
  | markAll t =>
    simp only [sStep] at h
    split at h
    · rename_i th hth
      simp only [Res.ok.injEq] at h
      subst h
      have hx := hs _ (List.mem_of_getElem? hth)
      refine stored_set hs ?_
      unfold markAll
      refine ⟨by simp only; omega, by simp only; omega, ?_⟩
      intro c hc
      obtain ⟨h1, h2⟩ := hx.2.2 c hc
      exact ⟨h1, by have := hx.2.1; simp only; omega⟩
    · simp at h
  | returnUnacked t =>
    simp only [sStep] at h
    split at h
    · rename_i th hth
      have hx := hs _ (List.mem_of_getElem? hth)
      exact stored_applyCp hs hth (hC _ hx.1) h
    · simp at h
  | exit t =>
    simp only [sStep] at h
    split at h
    · rename_i th hth
      split at h
      · simp at h
      · simp only [Res.ok.injEq] at h
        subst h
        exact stored_set hs (by have := hs _ (List.mem_of_getElem? hth); exact this)
    · simp at h

theorem nonneg_own : ∀ a, 0 ≤ a → CpNonneg { numBlocks := a } := fun _ ha => ⟨ha, Int.le_refl _⟩

theorem Stored.init (C : Checkpoint → Prop) (mb : Int) (del : Bool) (n : Nat) : Stored C (SSys.init mb del n) := by
  intro th hth
  simp only [SSys.init, List.mem_replicate] at hth
  rw [hth.2]
  exact ⟨Int.le_refl _, Int.le_refl _, by simp⟩

theorem cpBytes_nonneg {x : Source} {cp : Option Checkpoint} (h : ∀ c, cp = some c → CpNonneg c) : 0 ≤ cpBytes x cp := by
  unfold cpBytes
  split
  · exact Int.le_refl _
  · rename_i c
    have := (h c rfl).2
    split
    · split
      · exact this
      · exact Int.le_refl _
    · exact this

/-- With checkpoints from the decoder, credited byte counts are never negative. -/
theorem along_nonneg (P : Pot) (hP : ∀ x cp, 0 ≤ cpBytes x cp → P.CG x cp) (mb : Int) (del : Bool) (n : Nat)
    (evs : List SEvent) (he : ∀ e ∈ evs, e.NonNeg) : Along (CpOK P) (SSys.init mb del n) evs := by
  refine Along.of_inv StoredNonneg SEvent.NonNeg ?_ (fun s e s' => stored_step nonneg_own) evs _
    (Stored.init _ mb del n) he
  intro s e hs hn
  cases e with
  | localCp t cp =>
    intro th _ x _
    refine hP x _ (cpBytes_nonneg ?_)
    intro c hc
    simp only [Option.some.injEq] at hc
    subst hc; exact hn
  | globalCp t cp =>
    intro th _ x _
    refine hP x _ (cpBytes_nonneg ?_)
    intro c hc
    simp only [Option.some.injEq] at hc
    subst hc; exact hn
  | returnUnacked t =>
    intro th hth x _
    refine hP x _ (cpBytes_nonneg ?_)
    intro c hc
    simp only [Option.some.injEq] at hc
    subst hc
    exact ⟨(hs th (List.mem_of_getElem? hth)).1, Int.le_refl _⟩
  | sent t o =>
    intro th x hth _ _
    refine hP _ _ (cpBytes_nonneg ?_)
    exact fun c hc => ((hs th (List.mem_of_getElem? hth)).2.2 c hc).1
  | _ => trivial

end Wdt
