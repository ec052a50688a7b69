import Verif.Props.History
import Mathlib.Tactic.ByContra
import Mathlib.Tactic.Tauto
/-
C53: `finish` returns a report.  With `full_reporting` it runs a number of `CHECK`s:
every history is fully acknowledged, and statistics of blocks and threads agree.
-/
namespace Wdt

/-- Not a claim of bytes for block 0 at offset 0.  (Block ids start at 1 unless a resumed
transfer resets the counter, see `C51`; old protocols have no ids and always say 0.) -/
def NotZero (c : Checkpoint) : Prop :=
  c.lastBlockSeqId = 0 → c.lastBlockOffset = 0 → c.lastBlockReceivedBytes = 0

/-- The thread has ended. -/
def Idle (th : SThread) : Prop := th.opening = none ∧ th.cur = none

def Settled (th : SThread) : Prop := th.hist.numAcked = th.hist.history.length

def finEv (anyOk : Bool) (t : Nat) : SEvent := if anyOk then .markAll t else .returnUnacked t

theorem finishThreads_eq (a : Bool) : ∀ (ts : List Nat) (s : SSys), finishThreads a s ts = sRun s (ts.map (finEv a)) := by
  intro ts
  induction ts with
  | nil => intro s; rfl
  | cons t ts ih =>
    intro s
    unfold finishThreads
    rw [List.map_cons]
    unfold sRun finEv
    split <;> first | exact ih _ | rfl

theorem sRun_append (e1 e2 : List SEvent) : ∀ s s1, sRun s e1 = .ok s1 → sRun s (e1 ++ e2) = sRun s1 e2 := by
  induction e1 with
  | nil => intro s s1 h; simp only [sRun, Res.ok.injEq] at h; subst h; rfl
  | cons e es ih =>
    intro s s1 h
    rw [List.cons_append]
    unfold sRun at h
    conv => lhs; unfold sRun
    split at h
    · rename_i s2 h2
      exact ih s2 s1 h
    · simp at h
    · simp at h

theorem fin_step (a : Bool) {s : SSys} {t : Nat} (hd : PotInv deqPot s) (hst : StoredNonneg s)
    (hz : a = false → Stored NotZero s) (hidle : ∀ th ∈ s.threads, Idle th) (ht : t < s.threads.length) :
    ∃ th', sStep s (finEv a t) = .ok { s with
        q := (match sStep s (finEv a t) with | .ok s' => s'.q | _ => s.q)
        threads := s.threads.set t th'
        credits := (match sStep s (finEv a t) with | .ok s' => s'.credits | _ => s.credits) } ∧
      Idle th' ∧ Settled th' := by
  obtain ⟨th, hth⟩ : ∃ th, s.threads[t]? = some th := ⟨_, List.getElem?_eq_getElem ht⟩
  have hid := hidle th (List.mem_of_getElem? hth)
  cases a with
  | true =>
    simp only [finEv, if_true, sStep, hth]
    exact ⟨_, rfl, hid, rfl⟩
  | false =>
    have hs := hst th (List.mem_of_getElem? hth)
    have hz := hz rfl th (List.mem_of_getElem? hth)
    have hn : CpNonneg ({ numBlocks := th.hist.numAcked } : Checkpoint) := nonneg_own _ hs.1
    obtain ⟨s', hs'⟩ := @applyCp_noFault s t th { numBlocks := th.hist.numAcked } false hd hth hn
    have hev : sStep s (finEv false t) = .ok s' := by
      simp only [finEv, Bool.false_eq_true, if_false, sStep, hth, returnUnacked]
      exact hs'
    rw [hev]
    unfold applyCp at hs'
    split at hs'
    · simp at hs'
    · rename_i code h' l hc
      have hcode : code ≠ .invalid := by
        intro he
        subst he
        have := (C19_refused_iff th.hist { numBlocks := th.hist.numAcked } false hn).1 ⟨_, _, hc⟩
        rcases this with h1 | ⟨c, hcl, h1 | ⟨_, h2, h3, h4⟩⟩
        · simp only at h1; omega
        · have := (hz.2.2 c hcl).2
          simp only at h1; omega
        · have := (hz.2.2 c hcl).1 h2.symm h3.symm
          exact h4 this.symm
      have hr := C18_checkpoint_resumes _ _ _ _ _ _ hc hcode
      have := giveBack_ok hs'
      refine ⟨{ th with hist := h' }, ?_, hid, hr.2.2.1.symm⟩
      rw [this]

theorem fin_loop (a : Bool) : ∀ (ts : List Nat) (s : SSys), PotInv deqPot s → StoredNonneg s →
    (a = false → Stored NotZero s) → (∀ th ∈ s.threads, Idle th) → (∀ t ∈ ts, t < s.threads.length) →
    ∃ s', finishThreads a s ts = .ok s' ∧ (∀ th ∈ s'.threads, Idle th) ∧
      s'.threads.length = s.threads.length ∧
      ∀ i th', s'.threads[i]? = some th' → (i ∈ ts ∨ ∃ th, s.threads[i]? = some th ∧ Settled th) → Settled th' := by
  intro ts
  induction ts with
  | nil =>
    intro s _ _ _ hid _
    refine ⟨s, rfl, hid, rfl, ?_⟩
    rintro i th' h (h1 | ⟨th, h1, h2⟩)
    · cases h1
    · rw [h1] at h; simp only [Option.some.injEq] at h; subst h; exact h2
  | cons t ts ih =>
    intro s hd hst hz hid ht
    obtain ⟨th1, he, hi1, hs1⟩ := fin_step a hd hst hz hid (ht t (by simp))
    generalize (match sStep s (finEv a t) with | .ok s' => s'.q | _ => s.q) = q1 at he
    generalize (match sStep s (finEv a t) with | .ok s' => s'.credits | _ => s.credits) = c1 at he
    have hcps : ∀ C : Checkpoint → Prop, (finEv a t).Cps C := by
      intro C; unfold finEv; split <;> trivial
    have hcpok : CpOK deqPot s (finEv a t) := by
      unfold finEv; split <;> simp [CpOK, deqPot]
    have hnset : (finEv a t).isSetPrev = false := by unfold finEv; split <;> rfl
    have ht1 : t < s.threads.length := ht t (by simp)
    obtain ⟨s', hf, hid', hlen, hset⟩ := ih _ (Pot.step hd (by simp [hnset]) hcpok he)
      (stored_step nonneg_own hst (hcps _) he)
      (fun haf => stored_step (fun _ _ _ _ => rfl) (hz haf) (hcps _) he)
      (by
        intro th hth
        rcases mem_set_cases _ _ _ _ hth with rfl | hth
        · exact hi1
        · exact hid th hth)
      (by intro t' ht'; simp only [List.length_set]; exact ht t' (by simp [ht']))
    refine ⟨s', ?_, hid', by rw [hlen]; simp, ?_⟩
    · unfold finishThreads
      have : (if a then SEvent.markAll t else .returnUnacked t) = finEv a t := rfl
      rw [this, he]
      exact hf
    · intro i th' h' hor
      refine hset i th' h' ?_
      by_cases hi : i ∈ ts
      · exact Or.inl hi
      · right
        simp only
        rcases hor with h1 | ⟨th, h1, h2⟩
        · rcases List.mem_cons.1 h1 with rfl | h1
          · exact ⟨th1, by rw [List.getElem?_set_self ht1], hs1⟩
          · exact absurd h1 hi
        · by_cases hit : t = i
          · subst hit
            exact ⟨th1, by rw [List.getElem?_set_self ht1], hs1⟩
          · exact ⟨th, by rw [List.getElem?_set_ne hit]; exact h1, h2⟩

theorem popAll_ok (ths : List SThread) (h : ∀ th ∈ ths, Settled th) : ∃ st, popAll ths = .ok st ∧
    ∀ f : SrcStats → Int, (st.map f).sum = sumOf (fun th => sumOf (fun x => f x.stats) th.hist.history) ths := by
  induction ths with
  | nil => exact ⟨[], rfl, fun f => rfl⟩
  | cons th ths ih =>
    obtain ⟨st, h1, h2⟩ := ih (fun t ht => h t (by simp [ht]))
    have hs : th.hist.numAcked = th.hist.history.length := h th (by simp)
    refine ⟨th.hist.history.reverse.map Source.stats ++ st, ?_, ?_⟩
    · unfold popAll popAcked
      rw [if_pos hs, h1]
    · intro f
      rw [sumOf_cons, List.map_append, List.sum_append, h2 f]
      congr 1
      have := sumOf_reverse (fun x : Source => f x.stats) th.hist.history
      unfold sumOf at this ⊢
      rw [List.map_map]
      exact this

theorem run_stored {C : Checkpoint → Prop} (hC : ∀ a, 0 ≤ a → C { numBlocks := a }) (evs : List SEvent) :
    ∀ s s', Stored C s → (∀ e ∈ evs, e.Cps C) → sRun s evs = .ok s' → Stored C s' := by
  induction evs with
  | nil => intro s s' hs _ h; simp only [sRun, Res.ok.injEq] at h; subst h; exact hs
  | cons e es ih =>
    intro s s' hs he h
    unfold sRun at h
    split at h
    · rename_i s1 h1
      exact ih s1 s' (stored_step hC hs (he e (by simp)) h1) (fun e' h' => he e' (by simp [h'])) h
    · simp at h
    · simp at h

/-- Once all threads have ended, `finish` gets through all its checks and reports; when
no thread ended OK this needs that no checkpoint claimed bytes for "block 0 at offset 0"
(what is missing: see `C53_finish_can_crash`). -/
theorem C53_finish_partial (mb : Int) (del : Bool) (n : Nat) (evs : List SEvent) (s : SSys) (anyOk : Bool)
    (hl : SListFirst evs) (he : ∀ e ∈ evs, e.NonNeg) (h : sRun (SSys.init mb del n) evs = .ok s)
    (hend : ∀ th ∈ s.threads, th.opening = none ∧ th.cur = none)
    (hz : anyOk = false → ∀ e ∈ evs, e.Cps NotZero) :
    ∃ tr fl, finishReport s anyOk = .ok (tr, fl) := by
  have hal : Along (CpOK deqPot) (SSys.init mb del n) evs := by
    refine Along.of_inv (fun _ => True) (fun _ => True) ?_ (fun _ _ _ _ _ _ => trivial) evs _ trivial (fun _ _ => trivial)
    intro s e _ _
    cases e <;> simp [CpOK, deqPot]
  have hd := deqPot.final mb del n evs s hl hal h
  obtain ⟨s1, hf, hid, hlen, hset⟩ := fin_loop anyOk (List.range s.threads.length) s hd
    (run_stored nonneg_own evs _ _ (Stored.init _ mb del n) he h)
    (fun ha => run_stored (fun _ _ _ _ => rfl) evs _ _ (Stored.init _ mb del n) (hz ha) h) hend
    (by intro t ht; exact List.mem_range.1 ht)
  have hsettled : ∀ th ∈ s1.threads, Settled th := by
    intro th hth
    obtain ⟨i, hi, rfl⟩ := List.mem_iff_getElem.1 hth
    exact hset i _ (List.getElem?_eq_getElem hi) (Or.inl (List.mem_range.2 (by omega)))
  obtain ⟨st, hp, hsum⟩ := popAll_ok s1.threads hsettled
  rw [finishThreads_eq] at hf
  have hrun := sRun_append evs _ _ _ h ▸ hf
  rw [← sRun_append evs ((List.range s.threads.length).map (finEv anyOk)) _ _ h] at hf
  have hl2 : SListFirst (evs ++ (List.range s.threads.length).map (finEv anyOk)) := by
    unfold SListFirst
    rw [List.pairwise_append]
    have hn : ∀ t, (finEv anyOk t).isSetPrev = false := by intro t; unfold finEv; split <;> rfl
    refine ⟨hl, ?_, ?_⟩
    · rw [List.pairwise_map]
      refine List.Pairwise.imp ?_ (List.pairwise_lt_range (n := s.threads.length))
      intro a b _
      simp [hn]
    · intro e _ e' he'
      rw [List.mem_map] at he'
      obtain ⟨t, _, rfl⟩ := he'
      simp [hn]
  have tot := C52_totals_agree mb del n _ s1 hl2 hf
  unfold finishReport
  rw [finishThreads_eq, ← sRun_append evs _ _ _ h, hf]
  simp only [hp]
  have conv : ∀ f : SrcStats → Int, sumOf (fun x => f x.stats) s1.everywhere =
      sumOf (fun th => f th.hist.stats) s1.threads →
      (st.map f).sum + (((drainFailed s1.q).failed.map Source.stats).map f).sum =
        ((s1.threads.map fun th => th.hist.stats).map f).sum := by
    intro f hf
    rw [everywhere_sum] at hf
    have e1 : sumOf (fun th => sumOf (fun x => f x.stats) th.opening.toList + sumOf (fun x => f x.stats) th.cur.toList +
        sumOf (fun x => f x.stats) th.hist.history) s1.threads = (st.map f).sum := by
      rw [hsum f]
      refine sumOf_congr _ _ _ fun th hth => ?_
      rw [(hid th hth).1, (hid th hth).2]
      simp
    rw [e1] at hf
    unfold drainFailed
    simp only [List.map_append, List.sum_append, List.map_map]
    unfold sumOf at hf
    have k1 : List.map (f ∘ Source.stats) s1.q.failed = List.map (fun x => f x.stats) s1.q.failed := rfl
    have k2 : List.map (f ∘ Source.stats) s1.q.queue = List.map (fun x => f x.stats) s1.q.queue := rfl
    have k3 : List.map (f ∘ fun th : SThread => th.hist.stats) s1.threads = List.map (fun th => f th.hist.stats) s1.threads := rfl
    rw [k1, k2, k3]
    omega
  have c1 := conv _ tot.1
  have c2 := conv _ tot.2.1
  have c3 := conv _ tot.2.2.1
  have c4 := conv _ tot.2.2.2
  have hv : validateStats st ((drainFailed s1.q).failed.map Source.stats)
      (s1.threads.map fun th => th.hist.stats) = .ok () := by
    unfold validateStats
    simp only [c1, c2, c3, c4, beq_self_eq_true, Bool.and_self, if_true]
  rw [hv]
  exact ⟨_, _, rfl⟩

/-- The run of `C20` ends with idle threads and no zero claim. -/
example : ∃ s tr fl, sRun (SSys.init 0 false 2) demoRun = .ok s ∧ (∀ th ∈ s.threads, th.opening = none ∧ th.cur = none) ∧
    (∀ e ∈ demoRun, e.Cps NotZero) ∧ finishReport s false = .ok (tr, fl) ∧ tr.length = 1 ∧ fl.length = 0 := by
  refine ⟨_, _, _, rfl, ?_, ?_, rfl, ?_, ?_⟩
  · decide +kernel
  · intro e he
    simp only [demoRun, List.mem_cons, List.not_mem_nil, or_false] at he
    rcases he with rfl | rfl | rfl | rfl | rfl | rfl | rfl | rfl | rfl | rfl <;>
      first | trivial | (intro h; exact absurd h (by decide))
  · decide +kernel
  · decide +kernel

/-- A connection of an old protocol version (no sequence id in checkpoints): after a
checkpoint in the middle of the first block, one more block is sent and the
connection dies for good.  `finish` wants to return the unacknowledged block, its own
checkpoint looks like an inconsistent repetition and is refused, and the next `CHECK`
kills the process. -/
def crashRun : List SEvent :=
  [.discover ⟨[97], 3⟩, .discover ⟨[98], 3⟩, .finishDiscovery,
   .pop 0 { name := [97], seqId := 1, fileSize := 3, status := 0, offset := 0, size := 3 }, .openOk 0, .sent 0 (.fail 2),
   .localCp 0 { numBlocks := 0, lastBlockReceivedBytes := 2 },
   .pop 0 { name := [98], seqId := 2, fileSize := 3, status := 0, offset := 0, size := 3 }, .openOk 0, .sent 0 (.fail 1),
   .exit 0]

theorem C53_finish_can_crash : ∃ s, SListFirst crashRun ∧ (∀ e ∈ crashRun, e.NonNeg) ∧
    sRun (SSys.init 0 false 1) crashRun = .ok s ∧ (∀ th ∈ s.threads, th.opening = none ∧ th.cur = none) ∧
    finishReport s false = .fault .check := by
  refine ⟨_, ?_, ?_, rfl, ?_, rfl⟩
  · unfold SListFirst crashRun; simp [SEvent.isPop, SEvent.isSetPrev]
  · intro e he
    simp only [crashRun, List.mem_cons, List.not_mem_nil, or_false] at he
    rcases he with rfl | rfl | rfl | rfl | rfl | rfl | rfl | rfl | rfl | rfl | rfl <;> trivial
  · decide +kernel

/-! ## What the totals say about delivery (used by C22) -/

/-- What a step must satisfy for its checkpoint to be honest: it claims at most the
bytes the block has.  The sender does not check this. -/
def HonestClaim (x : Source) (cp : Option Checkpoint) : Prop :=
  0 ≤ cpBytes x cp ∧ (cpBytes x cp ≤ x.size ∨ cpBytes x cp = 0)

def HonestStep (s : SSys) : SEvent → Prop
  | .localCp t cp => ∀ th, s.threads[t]? = some th → ∀ x ∈ th.hist.history, HonestClaim x (some cp)
  | .globalCp t cp => ∀ th, s.threads[t]? = some th → ∀ x ∈ th.hist.history, HonestClaim x (some cp)
  | .sent t _ => ∀ th x, s.threads[t]? = some th → th.cur = some x → th.hist.globalCp = true →
      HonestClaim x th.hist.lastCp
  | _ => True

/-- Number of blocks of negative size. -/
def negW (x : Source) : Int := if x.size < 0 then 1 else 0

def negPot : Pot where
  G := fun _ => True
  CG := HonestClaim
  queueW := negW
  openW := negW
  curW := negW
  histW := negW
  failW := negW
  createdW := negW
  statW := fun _ => 0
  credW := fun _ => 0
  deqW := 0
  stat0 := rfl
  cg_none := fun _ => ⟨Int.le_refl _, Or.inr rfl⟩
  g_create := fun _ _ => trivial
  g_open := fun _ _ => trivial
  g_fail := fun _ _ => trivial
  g_sent := fun _ _ _ => trivial
  g_mark := fun _ _ _ _ _ => trivial
  create := fun _ _ => rfl
  pop := fun _ => rfl
  openOk := fun x _ => by
    unfold openedSource
    split <;> (show negW x = negW x + 0; omega)
  openFail := fun _ _ => rfl
  sent := fun _ _ _ _ _ => rfl
  mark := fun x ts cp _ hc => by
    have ho := (markFailed_offset x ts cp).2.1
    obtain ⟨h1, h2⟩ := hc
    unfold negW
    rw [ho]
    have : x.size < 0 ↔ x.size - cpBytes x cp < 0 := by omega
    simp only [this]
    omega

/-- Effective bytes plus what is still to be sent. -/
def effPot : Pot where
  G := fun x => x.status = TO_BE_DELETED → x.size = 0
  CG := HonestClaim
  queueW := fun x => x.stats.effDataBytes + x.size
  openW := fun x => x.stats.effDataBytes + x.size
  curW := fun x => x.stats.effDataBytes + x.size
  histW := fun x => x.stats.effDataBytes + if x.stats.failed then x.size else 0
  failW := fun x => x.stats.effDataBytes + x.size
  createdW := fun x => x.size
  statW := fun _ => 0
  credW := fun _ => 0
  deqW := 0
  stat0 := rfl
  cg_none := fun _ => ⟨Int.le_refl _, Or.inr rfl⟩
  g_create := fun _ h => h.2
  g_open := fun x h => by unfold openedSource; split <;> exact h
  g_fail := fun _ h => h
  g_sent := fun _ _ h => h
  g_mark := fun x ts cp h hc => by
    obtain ⟨_, h2, _, _, h5, _⟩ := markFailed_offset x ts cp
    rw [h5, h2]
    intro hs
    have := h hs
    obtain ⟨h1, h2⟩ := hc
    omega
  create := fun x h => by rw [h.1]; exact Int.zero_add _
  pop := fun _ => rfl
  openOk := fun x _ => by
    unfold openedSource
    split
    · omega
    · simp only; omega
  openFail := fun _ _ => rfl
  sent := fun x o ts hg hf => by
    cases hfl : x.stats.failed with
    | true =>
      have h0 := hg (hf hfl)
      cases o with
      | ok hb => simp only [SrcStats.add, sendStats, hfl, Bool.true_or, if_true]; omega
      | fail d => simp only [SrcStats.add, sendStats, hfl, Bool.or_true, if_true]; omega
    | false =>
      cases o with
      | ok hb => simp only [SrcStats.add, sendStats, hfl, Bool.or_self, Bool.false_eq_true, if_false]; omega
      | fail d => simp only [SrcStats.add, sendStats, hfl, Bool.false_or, if_true]; omega
  mark := fun x ts cp _ _ => by
    unfold markFailed advanceOffset
    simp only
    cases hfl : x.stats.failed with
    | true => simp only [if_true]; omega
    | false => simp only [Bool.false_eq_true, if_false]; omega

theorem honest_along (P : Pot) (hP : P.CG = HonestClaim) (evs : List SEvent) : ∀ s, Along HonestStep s evs →
    Along (CpOK P) s evs := by
  refine fun s h => Along.mono ?_ evs s h
  intro s e he
  cases e with
  | localCp t cp => intro th hth x hx; rw [hP]; exact he th hth x hx
  | globalCp t cp => intro th hth x hx; rw [hP]; exact he th hth x hx
  | returnUnacked t =>
    intro th hth x hx
    rw [hP]
    have : cpBytes x (some { numBlocks := th.hist.numAcked }) = 0 := by
      simp [cpBytes]
    exact ⟨by omega, Or.inr this⟩
  | sent t o =>
    intro th x hth hc hg
    rw [hP]
    have := he th x hth hc hg
    exact this
  | _ => trivial

/-- Sizes stay non-negative if they were when discovered. -/
theorem sizes_nonneg (mb : Int) (del : Bool) (n : Nat) (evs : List SEvent) (s : SSys) (hl : SListFirst evs)
    (hh : Along HonestStep (SSys.init mb del n) evs) (h : sRun (SSys.init mb del n) evs = .ok s)
    (hc : ∀ b ∈ s.created, 0 ≤ b.size) : ∀ x ∈ s.everywhere, 0 ≤ x.size := by
  have ht := (negPot.final mb del n evs s hl (honest_along negPot rfl evs _ hh) h).total
  unfold Pot.total at ht
  have hth : sumOf negPot.thW s.threads = sumOf (fun th => sumOf negW th.opening.toList +
      sumOf negW th.cur.toList + sumOf negW th.hist.history) s.threads := by
    refine sumOf_congr _ _ _ fun th _ => ?_
    unfold Pot.thW
    simp only [negPot, Int.add_zero]
  have hev := everywhere_sum negW s
  rw [hth] at ht
  simp only [negPot, Int.zero_mul, Int.add_zero, sumOf_zero] at ht
  have h0 : sumOf negW s.created = 0 := by
    rw [sumOf_congr negW (fun _ => 0) s.created (fun b hb => by
      have := hc b hb
      unfold negW; rw [if_neg (by omega)])]
    exact sumOf_zero _
  intro x hx
  by_contra hneg
  have := sumOf_ge_mem negW (fun a => by unfold negW; split <;> decide) s.everywhere x hx
  have h1 : negW x = 1 := by unfold negW; rw [if_pos (by omega)]
  omega

/-- Blocks of a thread that have not been sent. -/
def SThread.unsent (th : SThread) : List Source :=
  th.opening.toList ++ th.cur.toList ++ th.hist.history.filter fun x => x.stats.failed

/-- Blocks not sent: in the queue, given up, in the hands of a thread, or cut off. -/
def SSys.unsent (s : SSys) : List Source := s.q.queue ++ s.threads.flatMap SThread.unsent ++ s.q.failed

/-- Total size of what was discovered = bytes reported as sent by the threads + bytes in
blocks not sent. -/
theorem sent_plus_unsent (mb : Int) (del : Bool) (n : Nat) (evs : List SEvent) (s : SSys) (hl : SListFirst evs)
    (hh : Along HonestStep (SSys.init mb del n) evs) (h : sRun (SSys.init mb del n) evs = .ok s) :
    sumOf (fun b => b.size) s.created =
      sumOf (fun th => th.hist.stats.effDataBytes) s.threads + sumOf (fun x => x.size) s.unsent := by
  have ht := (effPot.final mb del n evs s hl (honest_along effPot rfl evs _ hh) h).total
  have hst := (C52_totals_agree mb del n evs s hl h).2.2.1
  unfold Pot.total at ht
  rw [everywhere_sum] at hst
  have hadd : ∀ l : List Source, sumOf (fun x => x.stats.effDataBytes + x.size) l =
      sumOf (fun x => x.stats.effDataBytes) l + sumOf (fun x => x.size) l := by
    intro l
    induction l with
    | nil => rfl
    | cons a as ih => rw [sumOf_cons, sumOf_cons, sumOf_cons, ih]; omega
  have hhist : ∀ l : List Source, sumOf (fun x => x.stats.effDataBytes + if x.stats.failed then x.size else 0) l =
      sumOf (fun x => x.stats.effDataBytes) l + sumOf (fun x => x.size) (l.filter fun x => x.stats.failed) := by
    intro l
    induction l with
    | nil => rfl
    | cons a as ih =>
      rw [sumOf_cons, sumOf_cons, List.filter_cons, ih]
      cases a.stats.failed
      · simp only [Bool.false_eq_true, if_false]; omega
      · simp only [if_true, sumOf_cons]; omega
  have hth : ∀ l : List SThread, sumOf effPot.thW l = sumOf (fun th => sumOf (fun x => x.stats.effDataBytes) th.opening.toList +
      sumOf (fun x => x.stats.effDataBytes) th.cur.toList + sumOf (fun x => x.stats.effDataBytes) th.hist.history) l +
      sumOf (fun x => x.size) (l.flatMap SThread.unsent) := by
    intro l
    induction l with
    | nil => rfl
    | cons a as ih =>
      rw [sumOf_cons, sumOf_cons, List.flatMap_cons, sumOf_append, ih]
      unfold Pot.thW SThread.unsent
      rw [sumOf_append, sumOf_append]
      simp only [effPot]
      rw [hadd, hadd, hhist]
      omega
  rw [hth] at ht
  simp only [effPot, sumOf_zero] at ht
  rw [hadd, hadd] at ht
  unfold SSys.unsent
  rw [sumOf_append, sumOf_append]
  omega

/-! ### Totals of the queue -/

theorem tileLoop_sum (bs : Int) : ∀ (fuel : Nat) (off rem : Int) (bl : List Block),
    tileLoop bs fuel off rem = some bl → sumOf (fun b => b.size) bl = rem := by
  intro fuel
  induction fuel with
  | zero => intro off rem bl h; simp [tileLoop] at h
  | succ n ih =>
    intro off rem bl h
    simp only [tileLoop] at h
    split at h
    · rw [Option.map_eq_some_iff] at h
      obtain ⟨bl', h', rfl⟩ := h
      rw [sumOf_cons, ih _ _ _ h']
      simp only
      omega
    · simp only [Option.some.injEq] at h
      subst h
      rw [sumOf_cons, sumOf_nil]
      simp only
      omega

theorem totalChunkSize_eq (rs : List Interval) : totalChunkSize rs = sumOf Interval.size rs := by
  unfold totalChunkSize sumOf
  rw [List.sum_eq_foldl]

theorem tileAll_sum (bs : Int) (fuel : Nat) : ∀ (rs : List Interval) (bl : List Block),
    tileAll bs fuel rs = some bl → sumOf (fun b => b.size) bl = totalChunkSize rs := by
  intro rs
  rw [totalChunkSize_eq]
  induction rs with
  | nil => intro bl h; simp only [tileAll, Option.some.injEq] at h; subst h; rfl
  | cons r rs ih =>
    intro bl h
    unfold tileAll at h
    split at h
    · rename_i b1 b2 h1 h2
      simp only [Option.some.injEq] at h
      subst h
      rw [sumOf_append, sumOf_cons, tileLoop_sum _ _ _ _ _ h1, ih _ h2]
    · simp at h

theorem createInternal_total {q q' : QState} {f : FileRec} {new : List Source}
    (h : createInternal q f = .ok (q', new)) :
    q'.totalFileSize = q.totalFileSize + sumOf (fun x => x.size) new ∧ q'.numBlocks = q.numBlocks + new.length := by
  unfold createInternal at h
  split at h
  · simp at h
  · simp only [Except.ok.injEq, Prod.mk.injEq] at h
    obtain ⟨rfl, rfl⟩ := h
    exact ⟨by simp, by simp⟩
  · split at h
    · simp at h
    · rename_i bl hbl
      simp only [Except.ok.injEq, Prod.mk.injEq] at h
      obtain ⟨rfl, rfl⟩ := h
      refine ⟨?_, by simp⟩
      simp only
      rw [sumOf_map, ← tileAll_sum _ _ _ _ hbl]
      rfl

theorem recreateLoop_total (fs : List FileRec) : ∀ (q q' : QState) (new : List Source),
    recreateLoop q fs = .ok (q', new) →
    q'.totalFileSize = q.totalFileSize + sumOf (fun x => x.size) new ∧ q'.numBlocks = q.numBlocks + new.length := by
  induction fs with
  | nil =>
    intro q q' new h
    simp only [recreateLoop, Except.ok.injEq, Prod.mk.injEq] at h
    obtain ⟨rfl, rfl⟩ := h
    exact ⟨by simp, by simp⟩
  | cons f fs ih =>
    intro q q' new h
    unfold recreateLoop at h
    split at h
    · simp at h
    · rename_i q1 s1 h1
      split at h
      · simp at h
      · rename_i q2 s2 h2
        simp only [Except.ok.injEq, Prod.mk.injEq] at h
        obtain ⟨rfl, rfl⟩ := h
        have a := createInternal_total h1
        have b := ih _ _ _ h2
        rw [sumOf_append, List.length_append]
        constructor
        · omega
        · have := a.2; have := b.2; omega

theorem enqueueDeletions_total (q : QState) :
    (enqueueDeletions q).1.totalFileSize = q.totalFileSize + sumOf (fun x => x.size) (enqueueDeletions q).2 ∧
    (enqueueDeletions q).1.numBlocks = q.numBlocks + (enqueueDeletions q).2.length := by
  unfold enqueueDeletions
  split
  · exact ⟨by simp, by simp⟩
  · split
    · exact ⟨by simp, by simp⟩
    · simp only [List.length_map]
      refine ⟨?_, trivial⟩
      rw [sumOf_map]
      have : ∀ l : List FileChunksInfo, sumOf (fun a => (deletionSource a).size) l = 0 := fun l => sumOf_zero l
      rw [this]
      omega

/-- The counters of the queue match the blocks it was given. -/
def TotalsOK (s : SSys) : Prop :=
  s.q.totalFileSize = sumOf (fun x => x.size) s.created ∧ s.q.numBlocks = s.created.length

/-- Steps other than discovery leave the counters and the record of blocks alone. -/
theorem sStep_static {s s' : SSys} {e : SEvent} (h : sStep s e = .ok s') :
    (∃ f, e = .discover f) ∨ e = .finishDiscovery ∨ (∃ l, e = .setPrev l) ∨
    (s'.created = s.created ∧ s'.q.totalFileSize = s.q.totalFileSize ∧ s'.q.numBlocks = s.q.numBlocks ∧
      s'.q.shared = s.q.shared ∧ s'.q.prev = s.q.prev ∧ s'.q.initFinished = s.q.initFinished ∧
      s'.q.numEntries = s.q.numEntries ∧ s'.q.previouslySent = s.q.previouslySent) := by
  have gb : ∀ t th l, giveBack s t th l = .ok s' → (s'.created = s.created ∧ s'.q.totalFileSize = s.q.totalFileSize ∧
      s'.q.numBlocks = s.q.numBlocks ∧
      s'.q.shared = s.q.shared ∧ s'.q.prev = s.q.prev ∧ s'.q.initFinished = s.q.initFinished ∧
      s'.q.numEntries = s.q.numEntries ∧ s'.q.previouslySent = s.q.previouslySent) := by
    intro t th l hg
    rw [giveBack_ok hg]
    exact ⟨rfl, rfl, rfl, rfl, rfl, rfl, rfl, rfl⟩
  have ac : ∀ t th r, applyCp s t th r = .ok s' → (s'.created = s.created ∧ s'.q.totalFileSize = s.q.totalFileSize ∧
      s'.q.numBlocks = s.q.numBlocks ∧
      s'.q.shared = s.q.shared ∧ s'.q.prev = s.q.prev ∧ s'.q.initFinished = s.q.initFinished ∧
      s'.q.numEntries = s.q.numEntries ∧ s'.q.previouslySent = s.q.previouslySent) := by
    intro t th r hr
    unfold applyCp at hr
    split at hr
    · simp at hr
    · exact gb _ _ _ hr
  cases e with
  | discover f => exact Or.inl ⟨f, rfl⟩
  | finishDiscovery => exact Or.inr (Or.inl rfl)
  | setPrev infos => exact Or.inr (Or.inr (Or.inl ⟨_, rfl⟩))
  | pop t x =>
    refine Or.inr (Or.inr (Or.inr ?_))
    simp only [sStep] at h
    split at h
    · split at h
      · simp at h
      · split at h
        · simp at h
        · rename_i q hq
          simp only [Res.ok.injEq] at h
          subst h
          unfold popSource at hq
          split at hq
          · simp only [Option.some.injEq] at hq
            subst hq; exact ⟨rfl, rfl, rfl, rfl, rfl, rfl, rfl, rfl⟩
          · simp at hq
    · simp at h
  | openOk t =>
    refine Or.inr (Or.inr (Or.inr ?_))
    simp only [sStep] at h
    split at h
    · simp only [Res.ok.injEq] at h
      subst h; exact ⟨rfl, rfl, rfl, rfl, rfl, rfl, rfl, rfl⟩
    · simp at h
  | openFail t =>
    refine Or.inr (Or.inr (Or.inr ?_))
    simp only [sStep] at h
    split at h
    · simp only [Res.ok.injEq] at h
      subst h; exact ⟨rfl, rfl, rfl, rfl, rfl, rfl, rfl, rfl⟩
    · simp at h
  | sent t o =>
    refine Or.inr (Or.inr (Or.inr ?_))
    simp only [sStep] at h
    split at h
    · exact gb _ _ _ h
    · simp at h
  | localCp t cp =>
    refine Or.inr (Or.inr (Or.inr ?_))
    simp only [sStep] at h
    split at h
    · split at h
      · simp at h
      · exact ac _ _ _ h
    · simp at h
  | globalCp t cp =>
    refine Or.inr (Or.inr (Or.inr ?_))
    simp only [sStep] at h
    split at h
    · exact ac _ _ _ h
    · simp only [Res.ok.injEq] at h
      subst h; exact ⟨rfl, rfl, rfl, rfl, rfl, rfl, rfl, rfl⟩
  | markAll t =>
    refine Or.inr (Or.inr (Or.inr ?_))
    simp only [sStep] at h
    split at h
    · simp only [Res.ok.injEq] at h
      subst h; exact ⟨rfl, rfl, rfl, rfl, rfl, rfl, rfl, rfl⟩
    · simp at h
  | returnUnacked t =>
    refine Or.inr (Or.inr (Or.inr ?_))
    simp only [sStep] at h
    split at h
    · exact ac _ _ _ h
    · simp at h
  | exit t =>
    refine Or.inr (Or.inr (Or.inr ?_))
    simp only [sStep] at h
    split at h
    · split at h
      · simp at h
      · simp only [Res.ok.injEq] at h
        subst h; exact ⟨rfl, rfl, rfl, rfl, rfl, rfl, rfl, rfl⟩
    · simp at h

theorem totals_step {s s' : SSys} {e : SEvent} (hs : TotalsOK s) (h : sStep s e = .ok s') : TotalsOK s' := by
  rcases sStep_static h with ⟨f, rfl⟩ | rfl | ⟨infos, rfl⟩ | ⟨h1, h2, h3, _⟩
  · simp only [sStep] at h
    split at h
    · simp at h
    · split at h
      · simp at h
      · rename_i q new hq
        simp only [Res.ok.injEq] at h
        subst h
        unfold discoverFile at hq
        have := createInternal_total hq
        unfold TotalsOK at hs ⊢
        simp only [sumOf_append, List.length_append] at this ⊢
        omega
  · simp only [sStep] at h
    split at h
    · simp at h
    · simp only [Res.ok.injEq] at h
      subst h
      have := enqueueDeletions_total { s.q with initFinished := true }
      unfold TotalsOK finishDiscovery at *
      simp only [sumOf_append, List.length_append] at this ⊢
      omega
  · simp only [sStep] at h
    split at h
    · simp at h
    · rename_i q new hq
      simp only [Res.ok.injEq] at h
      subst h
      unfold setPrev at hq
      split at hq
      · simp at hq
      · simp only at hq
        split at hq
        · simp at hq
        · rename_i q2 s2 h2
          simp only [Except.ok.injEq, Prod.mk.injEq] at hq
          obtain ⟨rfl, rfl⟩ := hq
          have a := recreateLoop_total _ _ _ _ h2
          have b := enqueueDeletions_total q2
          unfold TotalsOK
          simp only [sumOf_append, List.length_append] at a b ⊢
          omega
  · unfold TotalsOK at hs ⊢
    rw [h1, h2, h3]; exact hs

theorem totals_run (evs : List SEvent) : ∀ s s', TotalsOK s → sRun s evs = .ok s' → TotalsOK s' := by
  induction evs with
  | nil => intro s s' hs h; simp only [sRun, Res.ok.injEq] at h; subst h; exact hs
  | cons e es ih =>
    intro s s' hs h
    unfold sRun at h
    split at h
    · rename_i s1 h1
      exact ih s1 s' (totals_step hs h1) h
    · simp at h
    · simp at h

/-- C22's core: if the threads together report as many effective bytes as the queue
counted (the sender's test for success), no byte of any block is left unsent. -/
theorem all_sent (mb : Int) (del : Bool) (n : Nat) (evs : List SEvent) (s : SSys) (hl : SListFirst evs)
    (hh : Along HonestStep (SSys.init mb del n) evs) (h : sRun (SSys.init mb del n) evs = .ok s)
    (hc : ∀ b ∈ s.created, 0 ≤ b.size)
    (htot : sumOf (fun th => th.hist.stats.effDataBytes) s.threads = s.q.totalFileSize) :
    ∀ x ∈ s.unsent, x.size = 0 := by
  have h1 := sent_plus_unsent mb del n evs s hl hh h
  have h2 := (totals_run evs _ _ ⟨rfl, rfl⟩ h).1
  have h3 := sizes_nonneg mb del n evs s hl hh h hc
  have hsub : ∀ x ∈ s.unsent, x ∈ s.everywhere := by
    intro x hx
    unfold SSys.unsent at hx
    rw [everywhere_mem]
    simp only [List.mem_append, List.mem_flatMap] at hx
    rcases hx with (hx | ⟨th, hth, hx⟩) | hx
    · exact Or.inl hx
    · refine Or.inr (Or.inl ⟨th, hth, ?_⟩)
      unfold SThread.unsent at hx
      unfold SThread.all
      simp only [List.mem_append, List.mem_filter] at hx ⊢
      tauto
    · exact Or.inr (Or.inr hx)
  have hz : sumOf (fun x => x.size) s.unsent = 0 := by omega
  have gen : ∀ l : List Source, (∀ x ∈ l, 0 ≤ x.size) → sumOf (fun x => x.size) l = 0 → ∀ x ∈ l, x.size = 0 := by
    intro l
    induction l with
    | nil => intro _ _ x hx; cases hx
    | cons a as ih =>
      intro hnn hs x hx
      rw [sumOf_cons] at hs
      have ha := hnn a (by simp)
      have hnn' : 0 ≤ sumOf (fun x => x.size) as := by
        have : ∀ m : List Source, (∀ x ∈ m, 0 ≤ x.size) → 0 ≤ sumOf (fun x => x.size) m := by
          intro m
          induction m with
          | nil => intro _; exact Int.le_refl _
          | cons b bs ihb =>
            intro hm
            rw [sumOf_cons]
            have := hm b (by simp)
            have := ihb (fun x hx => hm x (by simp [hx]))
            simp only at *; omega
        exact this as (fun x hx => hnn x (by simp [hx]))
      rcases List.mem_cons.1 hx with rfl | hx
      · omega
      · exact ih (fun y hy => hnn y (by simp [hy])) (by omega) x hx
  exact gen _ (fun x hx => h3 x (hsub x hx)) hz

end Wdt
