import Verif.Lemmas.History
import Mathlib.Tactic.ByContra
/-
C18 (what a checkpoint does), C19 (what is refused), C20 (blocks are conserved
between queue and threads), C52 (statistics agree), C53 (finishing does not crash).
-/
namespace Wdt

/-! ## C18 -/

/-- An accepted checkpoint that reports `n` blocks and `b` bytes keeps exactly the
first `n` blocks as acknowledged and gives back exactly the others.  They keep their
file, sequence id and end; all keep their start except the oldest one, which is
shortened by exactly `b` bytes if the checkpoint names it (sequence id and offset),
and not at all if it names another block. -/
theorem C18_checkpoint_resumes (h h' : Hist) (cp : Checkpoint) (g : Bool) (code : CpRes)
    (l : List (Source × Source)) (hs : setCheckpoint h cp g = .ok (code, h', l)) (hc : code ≠ .invalid) :
    h'.history = h.history.take cp.numBlocks.toNat ∧
    h'.numAcked = cp.numBlocks ∧ h'.history.length = h'.numAcked ∧
    l.map Prod.fst = (h.history.drop cp.numBlocks.toNat).reverse ∧
    (∀ p ∈ l, p.2.name = p.1.name ∧ p.2.seqId = p.1.seqId ∧ p.2.status = p.1.status ∧
      p.2.offset + p.2.size = p.1.offset + p.1.size) ∧
    (∀ i p, l[i]? = some p → i + 1 < l.length → p.2.offset = p.1.offset ∧ p.2.size = p.1.size) ∧
    (∀ p, l.getLast? = some p → h.history[cp.numBlocks.toNat]? = some p.1 ∧
      (cp.hasSeqId = true →
        (cp.lastBlockSeqId = p.1.seqId ∧ cp.lastBlockOffset = p.1.offset →
          p.2.offset = p.1.offset + cp.lastBlockReceivedBytes ∧ p.2.size = p.1.size - cp.lastBlockReceivedBytes) ∧
        (¬ (cp.lastBlockSeqId = p.1.seqId ∧ cp.lastBlockOffset = p.1.offset) →
          p.2.offset = p.1.offset ∧ p.2.size = p.1.size))) := by
  rcases setCheckpoint_ok _ _ _ _ _ _ hs with ⟨hh, _⟩ | ⟨_, h0, hle, hfb, hh, ha, _⟩
  · exact absurd hh hc
  · have hl : l = (failBack cp (h.history.drop cp.numBlocks.toNat).reverse h.stats).1 := congrArg Prod.fst hfb
    have hfst : l.map Prod.fst = (h.history.drop cp.numBlocks.toNat).reverse := by
      rw [hl]; exact failBack_fst _ _ _
    have idx : ∀ (m : List Source) (ts : SrcStats) (i : Nat) (p : Source × Source),
        (failBack cp m ts).1[i]? = some p →
        (i + 1 < (failBack cp m ts).1.length → ∃ ts', p.2 = (markFailed p.1 ts' none).1) ∧
        (i + 1 = (failBack cp m ts).1.length → ∃ ts', p.2 = (markFailed p.1 ts' (some cp)).1) := by
      intro m
      induction m with
      | nil => intro ts i p hp; simp [failBack] at hp
      | cons s rest ih =>
        cases rest with
        | nil =>
          intro ts i p hp
          cases i with
          | zero =>
            simp only [failBack, List.getElem?_cons_zero, Option.some.injEq] at hp
            subst hp
            refine ⟨by simp [failBack], fun _ => ⟨ts, rfl⟩⟩
          | succ i => simp [failBack] at hp
        | cons r rest =>
          intro ts i p hp
          cases i with
          | zero =>
            simp only [failBack, List.getElem?_cons_zero, Option.some.injEq] at hp
            subst hp
            refine ⟨fun _ => ⟨ts, rfl⟩, ?_⟩
            intro hlen
            have := congrArg List.length (failBack_fst cp (r :: rest) (markFailed s ts none).2)
            simp only [failBack, List.length_cons, List.length_map] at hlen this
            omega
          | succ i =>
            simp only [failBack, List.getElem?_cons_succ] at hp
            obtain ⟨k1, k2⟩ := ih _ i p hp
            simp only [failBack, List.length_cons]
            exact ⟨fun hlt => k1 (by omega), fun heq => k2 (by omega)⟩
    refine ⟨hh, ha, ?_, hfst, ?_, ?_, ?_⟩
    · rw [hh, ha, List.length_take]; omega
    · intro p hp
      rw [hl] at hp
      rcases (failBack_pairs cp _ _ p hp).2 with ⟨ts', e⟩ | ⟨_, ts', e⟩
      · obtain ⟨o1, o2, o3, o4, o5, _⟩ := markFailed_offset p.1 ts' none
        rw [e]; exact ⟨o3, o4, o5, by omega⟩
      · obtain ⟨o1, o2, o3, o4, o5, _⟩ := markFailed_offset p.1 ts' (some cp)
        rw [e]; exact ⟨o3, o4, o5, by omega⟩
    · intro i p hp hlt
      rw [hl] at hp hlt
      obtain ⟨ts', e⟩ := (idx _ _ i p hp).1 hlt
      obtain ⟨o1, o2, _⟩ := markFailed_offset p.1 ts' none
      rw [e, o1, o2]
      simp [cpBytes]
    · intro p hp
      rw [List.getLast?_eq_getElem?] at hp
      have hne : l ≠ [] := by
        intro hnil; rw [hnil] at hp; simp at hp
      have hpos : 0 < l.length := List.length_pos_iff.2 hne
      constructor
      · have e : l.map Prod.fst = (h.history.drop cp.numBlocks.toNat).reverse := hfst
        have e1 : (l.map Prod.fst)[l.length - 1]? = some p.1 := by rw [List.getElem?_map, hp]; rfl
        have elen : l.length = (h.history.drop cp.numBlocks.toNat).length := by
          have := congrArg List.length e
          simpa using this
        rw [e, List.getElem?_reverse (by omega)] at e1
        have : (h.history.drop cp.numBlocks.toNat).length - 1 - (l.length - 1) = 0 := by omega
        rw [this, List.getElem?_drop] at e1
        exact e1
      · intro hseq
        rw [hl] at hp hpos
        obtain ⟨ts', e⟩ := (idx _ _ _ p hp).2 (by omega)
        obtain ⟨o1, o2, _⟩ := markFailed_offset p.1 ts' (some cp)
        constructor
        · intro hm
          rw [e, o1, o2]
          simp only [cpBytes]
          rw [if_pos hseq, if_pos hm]
          exact ⟨rfl, rfl⟩
        · intro hm
          rw [e, o1, o2]
          simp only [cpBytes]
          rw [if_pos hseq, if_neg hm]
          exact ⟨by omega, by omega⟩

/-- A block that was being sent when another thread delivered the checkpoint of a
dead connection is treated the same way once it is handed in. -/
theorem C18_block_in_flight (h h' : Hist) (x : Source) (cp : Checkpoint) (l : List (Source × Source))
    (hg : h.globalCp = true) (hcp : h.lastCp = some cp) (hseq : cp.hasSeqId = true)
    (ha : addSource h x = (h', l)) :
    h'.history = h.history ∧ ∃ y, l = [(x, y)] ∧ y.name = x.name ∧ y.seqId = x.seqId ∧
      y.offset + y.size = x.offset + x.size ∧
      y.offset = x.offset + (if cp.lastBlockSeqId = x.seqId ∧ cp.lastBlockOffset = x.offset
        then cp.lastBlockReceivedBytes else 0) := by
  unfold addSource at ha
  rw [hg, if_pos rfl] at ha
  simp only [Prod.mk.injEq] at ha
  obtain ⟨rfl, rfl⟩ := ha
  obtain ⟨o1, o2, o3, o4, _⟩ := markFailed_offset x h.stats h.lastCp
  refine ⟨rfl, _, rfl, o3, o4, by omega, ?_⟩
  rw [o1, hcp]
  simp only [cpBytes]
  rw [if_pos hseq]

def demoBlock (n : UInt8) (seq off size : Int) : Source :=
  { name := [n], seqId := seq, fileSize := 20, status := 0, offset := off, size := size,
    stats := { dataBytes := size, effHeaderBytes := 9, effDataBytes := size, numBlocks := 1 } }

/-- A checkpoint in the middle of the second of three blocks. -/
example : ∃ h' l, setCheckpoint { history := [demoBlock 97 1 0 10, demoBlock 98 2 0 10, demoBlock 99 3 0 10] }
      { numBlocks := 1, lastBlockSeqId := 2, lastBlockOffset := 0, lastBlockReceivedBytes := 4, hasSeqId := true }
      false = .ok (.ok, h', l) ∧
    h'.history = [demoBlock 97 1 0 10] ∧ l.map (fun p => (p.2.name, p.2.offset, p.2.size)) =
      [([99], 0, 10), ([98], 4, 6)] := ⟨_, _, rfl, rfl, rfl⟩

example : ∃ (h : Hist) (cp : Checkpoint), h.globalCp = true ∧ h.lastCp = some cp ∧ cp.hasSeqId = true :=
  ⟨{ globalCp := true, lastCp := some { hasSeqId := true } }, _, rfl, rfl, rfl⟩

/-- Checkpoints of old protocol versions carry no sequence id, and then one checkpoint
that reports 4 bytes is charged to two blocks: to the oldest unacknowledged one and to
the one in flight.  Four bytes of the second are never sent.  So "exactly where the
receiver stopped" holds only for checkpoints with a sequence id. -/
theorem C18_old_checkpoint_charged_twice :
    ∃ (h : Hist) (cp : Checkpoint) (h1 h2 : Hist) (l1 l2 : List (Source × Source)) (x : Source),
      cp.hasSeqId = false ∧ cp.lastBlockReceivedBytes = 4 ∧
      setCheckpoint h cp true = .ok (.ok, h1, l1) ∧ addSource h1 x = (h2, l2) ∧
      l1.map (fun p => p.2.offset - p.1.offset) = [4] ∧ l2.map (fun p => p.2.offset - p.1.offset) = [4] :=
  ⟨{ history := [demoBlock 97 1 0 10] }, { lastBlockReceivedBytes := 4 }, _, _, _, _, demoBlock 98 2 0 10,
    rfl, rfl, rfl, rfl, rfl, rfl⟩

/-! ## C19 -/

/-- Exactly these checkpoints are refused: more blocks than sent, fewer than the last
checkpoint, or the same block as last time with another number of bytes. -/
theorem C19_refused_iff (h : Hist) (cp : Checkpoint) (g : Bool) (hn : CpNonneg cp) :
    (∃ h' l, setCheckpoint h cp g = .ok (.invalid, h', l)) ↔
      (h.history.length < cp.numBlocks ∨
       ∃ c, h.lastCp = some c ∧ (cp.numBlocks < c.numBlocks ∨
        (cp.numBlocks = c.numBlocks ∧ cp.lastBlockSeqId = c.lastBlockSeqId ∧
          cp.lastBlockOffset = c.lastBlockOffset ∧ cp.lastBlockReceivedBytes ≠ c.lastBlockReceivedBytes))) := by
  obtain ⟨hn1, hn2⟩ := hn
  have hval : (validateCp h.lastCp cp g = .ok .invalid ↔
      ∃ c, h.lastCp = some c ∧ (cp.numBlocks < c.numBlocks ∨
        (cp.numBlocks = c.numBlocks ∧ cp.lastBlockSeqId = c.lastBlockSeqId ∧
          cp.lastBlockOffset = c.lastBlockOffset ∧ cp.lastBlockReceivedBytes ≠ c.lastBlockReceivedBytes))) ∧
      ∃ c, validateCp h.lastCp cp g = .ok c := by
    unfold validateCp
    cases hl : h.lastCp with
    | none => simp
    | some c =>
      simp only [Option.some.injEq, exists_eq_left']
      by_cases h1 : cp.numBlocks < c.numBlocks
      · simp [h1]
      · by_cases h2 : cp.numBlocks > c.numBlocks
        · rw [if_neg h1, if_pos h2]
          refine ⟨?_, _, rfl⟩
          simp only [Except.ok.injEq, reduceCtorEq, false_iff, not_or, not_and]
          exact ⟨h1, fun he => by omega⟩
        · rw [if_neg h1, if_neg h2]
          have heq : cp.numBlocks = c.numBlocks := by omega
          by_cases h3 : cp.lastBlockSeqId = c.lastBlockSeqId ∧ cp.lastBlockOffset = c.lastBlockOffset
          · rw [if_pos h3]
            by_cases h4 : cp.lastBlockReceivedBytes ≠ c.lastBlockReceivedBytes
            · rw [if_pos h4]
              exact ⟨by simp [heq, h3, h4], _, rfl⟩
            · rw [if_neg h4]
              constructor
              · cases g <;> simp [h1, h4]
              · cases g <;> exact ⟨_, rfl⟩
          · rw [if_neg h3, if_neg (by omega : ¬ cp.lastBlockReceivedBytes < 0)]
            constructor
            · have hn3 : ¬ (cp.numBlocks < c.numBlocks ∨ (cp.numBlocks = c.numBlocks ∧
                cp.lastBlockSeqId = c.lastBlockSeqId ∧ cp.lastBlockOffset = c.lastBlockOffset ∧
                cp.lastBlockReceivedBytes ≠ c.lastBlockReceivedBytes)) := by
                rintro (hh | ⟨_, hh1, hh2, _⟩)
                · exact h1 hh
                · exact h3 ⟨hh1, hh2⟩
              split <;> simp [hn3]
            · split <;> exact ⟨_, rfl⟩
  obtain ⟨hiff, cc, hcc⟩ := hval
  rw [← hiff]
  unfold setCheckpoint
  by_cases hlen : cp.numBlocks > h.history.length
  · rw [if_pos hlen]
    exact ⟨fun _ => Or.inl (by omega), fun _ => ⟨h, [], rfl⟩⟩
  · rw [if_neg hlen]
    rw [hcc]
    cases cc with
    | invalid => exact ⟨fun _ => Or.inr rfl, fun _ => ⟨h, [], rfl⟩⟩
    | ok =>
      simp only [if_neg (by omega : ¬ cp.numBlocks < 0)]
      constructor
      · rintro ⟨h', l, hh⟩; simp at hh
      · rintro (hh | hh)
        · omega
        · simp at hh
    | noProgress =>
      simp only [if_neg (by omega : ¬ cp.numBlocks < 0)]
      constructor
      · rintro ⟨h', l, hh⟩; simp at hh
      · rintro (hh | hh)
        · omega
        · simp at hh

/-- A refused checkpoint changes nothing and gives nothing back. -/
theorem C19_refused_no_effect (h h' : Hist) (cp : Checkpoint) (g : Bool) (l : List (Source × Source))
    (hs : setCheckpoint h cp g = .ok (.invalid, h', l)) : h' = h ∧ l = [] := by
  rcases setCheckpoint_ok _ _ _ _ _ _ hs with ⟨_, h1, h2⟩ | ⟨hne, _⟩
  · exact ⟨h1, h2⟩
  · exact absurd rfl hne

/-- In the running sender: such a checkpoint leaves queue, threads and records as they
were. -/
theorem C19_refused_system (s s' : SSys) (t : Nat) (th : SThread) (cp : Checkpoint) (hn : CpNonneg cp)
    (hth : s.threads[t]? = some th)
    (hbad : th.hist.history.length < cp.numBlocks ∨ ∃ c, th.hist.lastCp = some c ∧ cp.numBlocks < c.numBlocks)
    (h : sStep s (.globalCp t cp) = .ok s' ∨ sStep s (.localCp t cp) = .ok s') : s' = s := by
  have fin : ∀ g, applyCp s t th (setCheckpoint th.hist cp g) = .ok s' → s' = s := by
    intro g hg
    have hex : ∃ h' l, setCheckpoint th.hist cp g = .ok (.invalid, h', l) := by
      rw [C19_refused_iff _ _ _ hn]
      rcases hbad with hb | ⟨c, hc, hb⟩
      · exact Or.inl hb
      · exact Or.inr ⟨c, hc, Or.inl hb⟩
    obtain ⟨h', l, hs⟩ := hex
    obtain ⟨rfl, rfl⟩ := C19_refused_no_effect _ _ _ _ _ hs
    unfold applyCp at hg
    rw [hs] at hg
    have := giveBack_ok hg
    rw [this]
    simp only [List.map_nil, List.append_nil, List.length_nil, Int.natCast_zero, Int.sub_zero]
    have hset : s.threads.set t th = s.threads := by
      apply List.ext_getElem?
      intro i
      rw [List.getElem?_set]
      split
      · rename_i he
        subst he
        split
        · exact hth.symm
        · rename_i hlt
          rw [List.getElem?_eq_none (by omega)] at hth
          exact absurd hth (by simp)
      · rfl
    rw [hset]
  rcases h with h | h
  · simp only [sStep, hth] at h
    exact fin true h
  · simp only [sStep, hth] at h
    split at h
    · simp at h
    · exact fin false h

example : ∃ (h : Hist) (cp : Checkpoint), CpNonneg cp ∧ ((h.history.length : Int) < cp.numBlocks ∨
    ∃ c, h.lastCp = some c ∧ cp.numBlocks < c.numBlocks) :=
  ⟨{ history := [demoBlock 97 1 0 10], lastCp := some { numBlocks := 1 } }, { numBlocks := 0 },
    ⟨by decide, by decide⟩, Or.inr ⟨_, rfl, by decide⟩⟩

/-- Going back behind what a WAIT or ERR command acknowledged is not refused: only the
last checkpoint is remembered.  Here two acknowledged blocks return to the queue. -/
theorem C19_acknowledged_blocks_can_return :
    ∃ (h h' : Hist) (l : List (Source × Source)), h.numAcked = 2 ∧
      setCheckpoint h { numBlocks := 0 } false = .ok (.ok, h', l) ∧ l.length = 2 ∧ h'.numAcked = 0 :=
  ⟨markAll { history := [demoBlock 97 1 0 10, demoBlock 98 2 0 10] }, _, _, rfl, rfl, rfl, rfl⟩

/-! ## C20 -/

/-- Indicator of a block with key `k` that starts at or before `p`. -/
def occW (k : Bytes × Int × AllocStatus × Int) (p : Int) (x : Source) : Int :=
  if x.key = k ∧ x.offset ≤ p then 1 else 0

/-- Indicator of a credit for key `k` that covers `p`. -/
def credW (k : Bytes × Int × AllocStatus × Int) (p : Int) (c : Credit) : Int :=
  if c.key = k ∧ c.lo ≤ p ∧ p < c.hi then 1 else 0

def occPot (k : Bytes × Int × AllocStatus × Int) (p : Int) : Pot where
  G := fun _ => True
  CG := fun x cp => 0 ≤ cpBytes x cp
  queueW := occW k p
  openW := occW k p
  curW := occW k p
  histW := occW k p
  failW := occW k p
  createdW := occW k p
  statW := fun _ => 0
  credW := credW k p
  deqW := 0
  stat0 := rfl
  cg_none := fun _ => Int.le_refl _
  g_create := fun _ _ => trivial
  g_open := fun _ _ => trivial
  g_fail := fun _ _ => trivial
  g_sent := fun _ _ _ => trivial
  g_mark := fun _ _ _ _ _ => trivial
  create := fun _ _ => rfl
  pop := fun _ => rfl
  openOk := fun x _ => by
    unfold openedSource
    split <;> (show occW k p x = occW k p x + 0; omega)
  openFail := fun _ _ => rfl
  sent := fun _ _ _ _ _ => rfl
  mark := fun x ts cp _ hc => by
    have hk := markFailed_key x ts cp
    have ho := (markFailed_offset x ts cp).1
    unfold occW credW creditOf
    simp only [hk, ho]
    by_cases hkk : x.key = k
    · simp only [hkk, true_and]
      by_cases h1 : x.offset ≤ p
      · by_cases h2 : x.offset + cpBytes x cp ≤ p
        · simp [h1, h2]; try omega
        · simp [h1, h2]; try omega
      · have h2 : ¬ x.offset + cpBytes x cp ≤ p := by omega
        simp [h1, h2]
    · simp [hkk]

/-- Threads' blocks as one sum. -/
theorem sumOf_threads (w : Source → Int) (l : List SThread) :
    sumOf (fun th => sumOf w th.opening.toList + sumOf w th.cur.toList + sumOf w th.hist.history) l =
      sumOf w (l.flatMap SThread.all) := by
  induction l with
  | nil => rfl
  | cons a as ih =>
    rw [sumOf_cons, List.flatMap_cons, sumOf_append, ← ih]
    unfold SThread.all
    rw [sumOf_append, sumOf_append]

theorem everywhere_sum (w : Source → Int) (s : SSys) : sumOf w s.everywhere =
    sumOf w s.q.queue + sumOf (fun th => sumOf w th.opening.toList + sumOf w th.cur.toList +
      sumOf w th.hist.history) s.threads + sumOf w s.q.failed := by
  unfold SSys.everywhere
  rw [sumOf_append, sumOf_append, sumOf_threads]

/-- Byte-exact conservation.  For every block and every position: the number of places
(queue, threads, failed) that still have this position, plus the number of times it was
credited as received, equals the number of times it was created. -/
theorem C20_every_byte_conserved (mb : Int) (del : Bool) (n : Nat) (evs : List SEvent) (s : SSys)
    (hl : SListFirst evs) (he : ∀ e ∈ evs, e.NonNeg) (h : sRun (SSys.init mb del n) evs = .ok s)
    (k : Bytes × Int × AllocStatus × Int) (p : Int) :
    s.everywhere.countP (fun x => decide (x.key = k ∧ x.offset ≤ p)) +
      s.credits.countP (fun c => decide (c.key = k ∧ c.lo ≤ p ∧ p < c.hi)) =
    s.created.countP (fun x => decide (x.key = k ∧ x.offset ≤ p)) := by
  have hf := (occPot k p).final mb del n evs s hl
    (along_nonneg (occPot k p) (fun x cp hx => hx) mb del n evs he) h
  have ht := hf.total
  unfold Pot.total at ht
  have hth : sumOf (occPot k p).thW s.threads = sumOf (fun th => sumOf (occW k p) th.opening.toList +
      sumOf (occW k p) th.cur.toList + sumOf (occW k p) th.hist.history) s.threads := by
    refine sumOf_congr _ _ _ fun th _ => ?_
    unfold Pot.thW
    simp only [occPot, Int.add_zero]
  have hev := everywhere_sum (occW k p) s
  rw [hth] at ht
  simp only [occPot, Int.zero_mul, Int.add_zero] at ht
  have cnt : ∀ {α : Type} (w : α → Int) (q : α → Bool), (∀ a, w a = if q a = true then 1 else 0) →
      ∀ l : List α, sumOf w l = (l.countP q : Int) := by
    intro α w q hw l
    induction l with
    | nil => rfl
    | cons a as ih =>
      rw [sumOf_cons, List.countP_cons, ih, hw a]
      split <;> (simp; try omega)
  have c1 := cnt (occW k p) (fun x => decide (x.key = k ∧ x.offset ≤ p)) (by intro a; simp [occW]) s.everywhere
  have c2 := cnt (occW k p) (fun x => decide (x.key = k ∧ x.offset ≤ p)) (by intro a; simp [occW]) s.created
  have c3 := cnt (credW k p) (fun c => decide (c.key = k ∧ c.lo ≤ p ∧ p < c.hi)) (by intro a; simp [credW]) s.credits
  omega

/-- Blocks (file, sequence id, end) are conserved as a multiset. -/
theorem C20_blocks_conserved (mb : Int) (del : Bool) (n : Nat) (evs : List SEvent) (s : SSys)
    (hl : SListFirst evs) (he : ∀ e ∈ evs, e.NonNeg) (h : sRun (SSys.init mb del n) evs = .ok s) :
    (s.everywhere.map Source.key).Perm (s.created.map Source.key) := by
  rw [List.perm_iff_count]
  intro k
  have bound : ∀ l : List Int, ∃ p, ∀ x ∈ l, x ≤ p := by
    intro l
    induction l with
    | nil => exact ⟨0, by simp⟩
    | cons a as ih =>
      obtain ⟨p, hp⟩ := ih
      refine ⟨max a p, ?_⟩
      intro x hx
      rcases List.mem_cons.1 hx with rfl | hx
      · omega
      · have := hp x hx; omega
  obtain ⟨p, hp⟩ := bound (s.everywhere.map Source.offset ++ s.created.map Source.offset ++ s.credits.map Credit.hi)
  have hc := C20_every_byte_conserved mb del n evs s hl he h k p
  have e0 : s.credits.countP (fun c => decide (c.key = k ∧ c.lo ≤ p ∧ p < c.hi)) = 0 := by
    rw [List.countP_eq_zero]
    intro c hcm
    have := hp c.hi (by simp only [List.mem_append, List.mem_map]; exact Or.inr ⟨c, hcm, rfl⟩)
    simp only [decide_eq_true_eq, not_and]
    intro _ _; omega
  have conv : ∀ l : List Source, (∀ x ∈ l, x.offset ≤ p) →
      l.countP (fun x => decide (x.key = k ∧ x.offset ≤ p)) = (l.map Source.key).count k := by
    intro l
    induction l with
    | nil => intro _; rfl
    | cons a as ih =>
      intro hl
      rw [List.countP_cons, List.map_cons, List.count_cons, ih (fun x hx => hl x (by simp [hx]))]
      simp only [decide_eq_true_eq, hl a (by simp), and_true, beq_iff_eq]
  rw [e0, conv s.everywhere, conv s.created] at hc
  · omega
  · intro x hx
    exact hp _ (by simp only [List.mem_append, List.mem_map]; exact Or.inl (Or.inr ⟨x, hx, rfl⟩))
  · intro x hx
    exact hp _ (by simp only [List.mem_append, List.mem_map]; exact Or.inl (Or.inl ⟨x, hx, rfl⟩))

/-- A sender whose queue is drained, with nothing failed, nothing in flight and every
history fully acknowledged has delivered every byte of every block: it is in an
acknowledged block or was credited by a checkpoint. -/
theorem C20_everything_delivered (mb : Int) (del : Bool) (n : Nat) (evs : List SEvent) (s : SSys)
    (hl : SListFirst evs) (he : ∀ e ∈ evs, e.NonNeg) (h : sRun (SSys.init mb del n) evs = .ok s)
    (hq : s.q.queue = []) (hf : s.q.failed = [])
    (ht : ∀ th ∈ s.threads, th.opening = none ∧ th.cur = none ∧ th.hist.numAcked = th.hist.history.length)
    (b : Source) (hb : b ∈ s.created) (p : Int) (hp : b.offset ≤ p) (hp2 : p < b.offset + b.size) :
    (∃ th ∈ s.threads, ∃ x ∈ th.hist.history.take th.hist.numAcked.toNat,
      x.key = b.key ∧ x.offset ≤ p ∧ p < x.offset + x.size) ∨
    (∃ c ∈ s.credits, c.key = b.key ∧ c.lo ≤ p ∧ p < c.hi) := by
  have hc := C20_every_byte_conserved mb del n evs s hl he h b.key p
  have hpos : 0 < s.created.countP (fun x => decide (x.key = b.key ∧ x.offset ≤ p)) := by
    rw [List.countP_pos_iff]
    exact ⟨b, hb, by simp [hp]⟩
  by_cases hcr : 0 < s.credits.countP (fun c => decide (c.key = b.key ∧ c.lo ≤ p ∧ p < c.hi))
  · rw [List.countP_pos_iff] at hcr
    obtain ⟨c, hc1, hc2⟩ := hcr
    simp only [decide_eq_true_eq] at hc2
    exact Or.inr ⟨c, hc1, hc2⟩
  · have : 0 < s.everywhere.countP (fun x => decide (x.key = b.key ∧ x.offset ≤ p)) := by omega
    rw [List.countP_pos_iff] at this
    obtain ⟨x, hx, hx2⟩ := this
    simp only [decide_eq_true_eq] at hx2
    rw [everywhere_mem, hq, hf] at hx
    simp only [List.not_mem_nil, false_or, or_false] at hx
    obtain ⟨th, hth, hx⟩ := hx
    obtain ⟨t1, t2, t3⟩ := ht th hth
    rw [thread_mem, t1, t2] at hx
    simp only [reduceCtorEq, false_or] at hx
    left
    refine ⟨th, hth, x, ?_, hx2.1, hx2.2, ?_⟩
    · rw [t3]
      simpa using hx
    · have hend : x.offset + x.size = b.offset + b.size := congrArg (fun k => k.2.2.2) hx2.1
      omega

/-- What is credited was claimed by a checkpoint (with a sequence id) for that very
block: see `C18_checkpoint_resumes` and `C18_block_in_flight`. -/
def demoRun : List SEvent :=
  [.discover ⟨[97], 3⟩, .finishDiscovery,
   .pop 0 { name := [97], seqId := 1, fileSize := 3, status := 0, offset := 0, size := 3 }, .openOk 0,
   .sent 0 (.fail 2),
   .localCp 0 { numBlocks := 0, lastBlockSeqId := 1, lastBlockOffset := 0, lastBlockReceivedBytes := 2, hasSeqId := true },
   .pop 1 { name := [97], seqId := 1, fileSize := 3, status := 0, offset := 2, size := 1,
            stats := { dataBytes := 2, effDataBytes := 2, failedAttempts := 1, failed := true } },
   .openOk 1, .sent 1 (.ok 9), .markAll 1]

example : SListFirst demoRun := by unfold SListFirst demoRun; simp [SEvent.isPop, SEvent.isSetPrev]

example : ∀ e ∈ demoRun, e.NonNeg := by
  intro e he
  simp only [demoRun, List.mem_cons, List.not_mem_nil, or_false] at he
  rcases he with rfl | rfl | rfl | rfl | rfl | rfl | rfl | rfl | rfl | rfl <;>
    trivial

/-- The run ends with everything delivered by two threads. -/
example : ∃ s, sRun (SSys.init 0 false 2) demoRun = .ok s ∧ s.q.queue = [] ∧ s.q.failed = [] ∧
    s.credits.map (fun c => (c.lo, c.hi)) = [(0, 2)] ∧
    (s.threads.map fun th => th.hist.history.map fun x => (x.offset, x.size)) = [[], [(2, 1)]] ∧
    (∀ th ∈ s.threads, th.opening = none ∧ th.cur = none ∧ th.hist.numAcked = th.hist.history.length) := by
  refine ⟨_, rfl, ?_, ?_, ?_, ?_, ?_⟩ <;> decide +kernel

/-- Number of blocks handed out equals what the threads hold. -/
def deqPot : Pot where
  G := fun _ => True
  CG := fun _ _ => True
  queueW := fun _ => 0
  openW := fun _ => 0
  curW := fun _ => 1
  histW := fun _ => 1
  failW := fun _ => 0
  createdW := fun _ => 0
  statW := fun _ => 0
  credW := fun _ => 0
  deqW := -1
  stat0 := rfl
  cg_none := fun _ => trivial
  g_create := fun _ _ => trivial
  g_open := fun _ _ => trivial
  g_fail := fun _ _ => trivial
  g_sent := fun _ _ _ => trivial
  g_mark := fun _ _ _ _ _ => trivial
  create := fun _ _ => rfl
  pop := fun _ => rfl
  openOk := fun _ _ => by omega
  openFail := fun _ _ => rfl
  sent := fun _ _ _ _ _ => rfl
  mark := fun _ _ _ _ _ => by omega

theorem sumOf_const_one {α : Type} (l : List α) : sumOf (fun _ => 1) l = (l.length : Int) := by
  induction l with
  | nil => rfl
  | cons a as ih => rw [sumOf_cons, ih]; simp; omega

theorem sumOf_zero {α : Type} (l : List α) : sumOf (fun _ => 0) l = 0 := by
  induction l with
  | nil => rfl
  | cons a as ih => rw [sumOf_cons, ih]; simp

theorem sumOf_ge_mem {α : Type} (w : α → Int) (hw : ∀ a, 0 ≤ w a) (l : List α) (a : α) (h : a ∈ l) :
    w a ≤ sumOf w l := by
  induction l with
  | nil => cases h
  | cons b bs ih =>
    rw [sumOf_cons]
    have hnn : 0 ≤ sumOf w bs := by
      clear ih h
      induction bs with
      | nil => exact Int.le_refl _
      | cons c cs ih => rw [sumOf_cons]; have := hw c; omega
    rcases List.mem_cons.1 h with rfl | h
    · omega
    · have := ih h; have := hw b; omega

theorem deq_eq {s : SSys} (hi : PotInv deqPot s) (th : SThread) (hth : th ∈ s.threads) :
    (th.cur.toList.length + th.hist.history.length : Int) ≤ s.q.deq := by
  have ht := hi.total
  unfold Pot.total at ht
  have e : sumOf deqPot.thW s.threads =
      sumOf (fun th => (th.cur.toList.length + th.hist.history.length : Int)) s.threads := by
    refine sumOf_congr _ _ _ fun th _ => ?_
    unfold Pot.thW
    simp only [deqPot, sumOf_const_one, sumOf_zero]
    omega
  rw [e] at ht
  simp only [deqPot, sumOf_zero] at ht
  have := sumOf_ge_mem (fun th : SThread => (th.cur.toList.length + th.hist.history.length : Int))
    (by intro a; omega) s.threads th hth
  omega

/-- Giving back no more than a thread holds never fails. -/
theorem giveBack_noFault {s : SSys} {t : Nat} {th : SThread} {l : List (Source × Source)}
    (hl : (l.length : Int) ≤ s.q.deq) : ∃ s', giveBack s t th l = .ok s' := by
  unfold giveBack
  rw [returnToQueue_ok _ _ (by simpa using hl)]
  exact ⟨_, rfl⟩

theorem applyCp_noFault {s : SSys} {t : Nat} {th : SThread} {cp : Checkpoint} {g : Bool} (hi : PotInv deqPot s)
    (hth : s.threads[t]? = some th) (hn : CpNonneg cp) :
    ∃ s', applyCp s t th (setCheckpoint th.hist cp g) = .ok s' := by
  have hm := deq_eq hi th (List.mem_of_getElem? hth)
  have hex : ∃ r, setCheckpoint th.hist cp g = .ok r := by
    have hv : ∃ c, validateCp th.hist.lastCp cp g = .ok c := by
      unfold validateCp
      have := hn.2
      split
      · exact ⟨_, rfl⟩
      · repeat' split
        all_goals first | exact ⟨_, rfl⟩ | omega
    obtain ⟨c, hc⟩ := hv
    unfold setCheckpoint
    have := hn.1
    rw [hc]
    split
    · exact ⟨_, rfl⟩
    · cases c with
      | invalid => exact ⟨_, rfl⟩
      | ok => simp only [if_neg (by omega : ¬ cp.numBlocks < 0)]; exact ⟨_, rfl⟩
      | noProgress => simp only [if_neg (by omega : ¬ cp.numBlocks < 0)]; exact ⟨_, rfl⟩
  obtain ⟨⟨code, h', l⟩, hc⟩ := hex
  unfold applyCp
  rw [hc]
  refine giveBack_noFault ?_
  rcases setCheckpoint_ok _ _ _ _ _ _ hc with ⟨_, _, rfl⟩ | ⟨_, h0, hle, hfb, _⟩
  · have : (0 : Int) ≤ s.q.deq := by omega
    simpa using this
  · have hl : l.map Prod.fst = (th.hist.history.drop cp.numBlocks.toNat).reverse := by
      rw [show l = _ from congrArg Prod.fst hfb]; exact failBack_fst _ _ _
    have := congrArg List.length hl
    simp only [List.length_map, List.length_reverse, List.length_drop] at this
    omega

/-- No `CHECK` of the queue or of a history fires and no vector is popped while empty,
whatever the schedule and whatever checkpoints the decoder delivers.  (The one fault
left is the endless block loop of `C15_hostile_list_endless`.) -/
theorem C20_no_check_failure (mb : Int) (del : Bool) (n : Nat) (evs : List SEvent)
    (hl : SListFirst evs) (he : ∀ e ∈ evs, e.NonNeg) (hsz : ∀ f, SEvent.discover f ∈ evs → 0 ≤ f.size)
    (e : Fault) (h : sRun (SSys.init mb del n) evs = .fault e) : e = .hang := by
  have key : ∀ (evs : List SEvent) (s : SSys), PotInv deqPot s → StoredNonneg s → SListFirst evs →
      (∀ e ∈ evs, e.isSetPrev = true → SFresh s) → (∀ e ∈ evs, e.NonNeg) →
      (∀ f, SEvent.discover f ∈ evs → 0 ≤ f.size) → (∀ f ∈ s.q.shared, 0 ≤ f.size) →
      sRun s evs = .fault e → e = .hang := by
    intro evs
    induction evs with
    | nil => intro s _ _ _ _ _ _ _ h; simp [sRun] at h
    | cons ev evs ih =>
      intro s hi hst hl hset hnn hsz hsh h
      unfold SListFirst at hl
      rw [List.pairwise_cons] at hl
      unfold sRun at h
      split at h
      · rename_i s1 h1
        have hcp : CpOK deqPot s ev := by
          cases ev <;> simp [CpOK, deqPot]
        refine ih s1 (Pot.step hi (fun hh => hset ev (by simp) hh) hcp h1) (stored_step nonneg_own hst (hnn ev (by simp)) h1)
          hl.2 ?_ (fun e' h' => hnn e' (by simp [h'])) (fun f hf => hsz f (by simp [hf])) ?_ h
        · intro e' he' hs'
          refine sFresh_step (hset e' (by simp [he']) hs') ?_ h1
          cases hpop : ev.isPop with
          | false => rfl
          | true => exact absurd ⟨hpop, hs'⟩ (hl.1 e' he')
        · -- shared files keep non-negative sizes
          have same : s1.q.shared = s.q.shared → ∀ f ∈ s1.q.shared, 0 ≤ f.size := by
            intro e1; rw [e1]; exact hsh
          have gb : ∀ t th l, giveBack s t th l = .ok s1 → s1.q.shared = s.q.shared := by
            intro t th l hg
            rw [giveBack_ok hg]
          have ac : ∀ t th r, applyCp s t th r = .ok s1 → s1.q.shared = s.q.shared := by
            intro t th r hr
            unfold applyCp at hr
            split at hr
            · simp at hr
            · exact gb _ _ _ hr
          cases ev with
          | discover f =>
            simp only [sStep] at h1
            split at h1
            · simp at h1
            · split at h1
              · simp at h1
              · rename_i q new hq
                simp only [Res.ok.injEq] at h1
                subst h1
                unfold discoverFile at hq
                obtain ⟨_, _, _, a4, _⟩ := createInternal_ok _ _ _ _ hq
                intro g hg
                simp only [a4] at hg
                rcases List.mem_append.1 hg with hg | hg
                · exact hsh g hg
                · rw [List.mem_singleton] at hg
                  subst hg
                  exact hsz _ (by simp)
          | finishDiscovery =>
            simp only [sStep] at h1
            split at h1
            · simp at h1
            · simp only [Res.ok.injEq] at h1
              subst h1
              unfold finishDiscovery
              obtain ⟨extra, _, _, _, _, _, _, _, _, _, c10, _⟩ := enqueueDeletions_ok { s.q with initFinished := true }
              intro g hg
              simp only [c10] at hg
              rcases List.mem_append.1 hg with hg | hg
              · exact hsh g hg
              · rw [List.mem_map] at hg
                obtain ⟨i, _, rfl⟩ := hg
                exact Int.le_refl _
          | setPrev infos =>
            simp only [sStep] at h1
            split at h1
            · simp at h1
            · rename_i q new hq
              simp only [Res.ok.injEq] at h1
              subst h1
              unfold setPrev at hq
              split at hq
              · simp at hq
              · simp only at hq
                split at hq
                · simp at hq
                · rename_i q2 s2 h2
                  simp only [Except.ok.injEq, Prod.mk.injEq] at hq
                  obtain ⟨rfl, rfl⟩ := hq
                  obtain ⟨_, _, _, b4, _⟩ := recreateLoop_ok _ _ _ _ h2
                  obtain ⟨extra, _, _, _, _, _, _, _, _, _, c10, _⟩ := enqueueDeletions_ok q2
                  intro g hg
                  simp only [c10, b4] at hg
                  rcases List.mem_append.1 hg with hg | hg
                  · exact hsh g hg
                  · rw [List.mem_map] at hg
                    obtain ⟨i, _, rfl⟩ := hg
                    exact Int.le_refl _
          | pop t x =>
            refine same ?_
            simp only [sStep] at h1
            split at h1
            · split at h1
              · simp at h1
              · split at h1
                · simp at h1
                · rename_i q hq
                  simp only [Res.ok.injEq] at h1
                  subst h1
                  unfold popSource at hq
                  split at hq
                  · simp only [Option.some.injEq] at hq
                    subst hq; rfl
                  · simp at hq
            · simp at h1
          | openOk t =>
            refine same ?_
            simp only [sStep] at h1
            split at h1
            · simp only [Res.ok.injEq] at h1
              subst h1; rfl
            · simp at h1
          | openFail t =>
            refine same ?_
            simp only [sStep] at h1
            split at h1
            · simp only [Res.ok.injEq] at h1
              subst h1; rfl
            · simp at h1
          | sent t o =>
            refine same ?_
            simp only [sStep] at h1
            split at h1
            · exact gb _ _ _ h1
            · simp at h1
          | localCp t cp =>
            refine same ?_
            simp only [sStep] at h1
            split at h1
            · split at h1
              · simp at h1
              · exact ac _ _ _ h1
            · simp at h1
          | globalCp t cp =>
            refine same ?_
            simp only [sStep] at h1
            split at h1
            · exact ac _ _ _ h1
            · simp only [Res.ok.injEq] at h1
              subst h1; rfl
          | markAll t =>
            refine same ?_
            simp only [sStep] at h1
            split at h1
            · simp only [Res.ok.injEq] at h1
              subst h1; rfl
            · simp at h1
          | returnUnacked t =>
            refine same ?_
            simp only [sStep] at h1
            split at h1
            · exact ac _ _ _ h1
            · simp at h1
          | exit t =>
            refine same ?_
            simp only [sStep] at h1
            split at h1
            · split at h1
              · simp at h1
              · simp only [Res.ok.injEq] at h1
                subst h1; rfl
            · simp at h1
      · rename_i f hf
        simp only [Res.fault.injEq] at h
        subst h
        cases ev with
        | discover g =>
          simp only [sStep] at hf
          split at hf
          · simp at hf
          · split at hf
            · rename_i e' hq
              simp only [Res.fault.injEq] at hf
              subst hf
              unfold discoverFile at hq
              exact createInternal_fault _ _ (hsz g (by simp)) _ hq
            · simp at hf
        | finishDiscovery =>
          simp only [sStep] at hf
          split at hf <;> simp at hf
        | setPrev infos =>
          simp only [sStep] at hf
          split at hf
          · rename_i e' hq
            simp only [Res.fault.injEq] at hf
            subst hf
            have hd : s.q.deq = 0 := (hset (.setPrev infos) (by simp) rfl).2.2.1
            unfold setPrev at hq
            rw [if_neg (by omega)] at hq
            simp only at hq
            split at hq
            · rename_i e2 h2
              simp only [Except.error.injEq] at hq
              subst hq
              exact recreateLoop_fault _ _ (by exact hsh) _ h2
            · simp at hq
          · simp at hf
        | pop t x =>
          simp only [sStep] at hf
          repeat' split at hf
          all_goals simp at hf
        | openOk t =>
          simp only [sStep] at hf
          repeat' split at hf
          all_goals simp at hf
        | openFail t =>
          simp only [sStep] at hf
          repeat' split at hf
          all_goals simp at hf
        | sent t o =>
          simp only [sStep] at hf
          split at hf
          · rename_i hh x hth
            have hm := deq_eq hi _ (List.mem_of_getElem? hth)
            simp only [Option.toList_some, List.length_singleton] at hm
            obtain ⟨s', hs'⟩ := @giveBack_noFault s t ⟨(addSource { hh with stats := hh.stats.add (sendStats x o) }
              { x with stats := x.stats.add (sendStats x o) }).1, none, none⟩
              (addSource { hh with stats := hh.stats.add (sendStats x o) }
              { x with stats := x.stats.add (sendStats x o) }).2 (by
                unfold addSource
                cases hh.globalCp with
                | true => simp only [if_true, List.length_singleton]; omega
                | false => simp only [Bool.false_eq_true, if_false, List.length_nil]; omega)
            rw [hs'] at hf
            simp at hf
          · simp at hf
        | localCp t cp =>
          simp only [sStep] at hf
          split at hf
          · rename_i th hth
            split at hf
            · simp at hf
            · obtain ⟨s', hs'⟩ := @applyCp_noFault s t th cp false hi hth (hnn (.localCp t cp) (by simp))
              rw [hs'] at hf; simp at hf
          · simp at hf
        | globalCp t cp =>
          simp only [sStep] at hf
          split at hf
          · rename_i th hth
            obtain ⟨s', hs'⟩ := @applyCp_noFault s t th cp true hi hth (hnn (.globalCp t cp) (by simp))
            rw [hs'] at hf; simp at hf
          · simp at hf
        | markAll t =>
          simp only [sStep] at hf
          split at hf <;> simp at hf
        | returnUnacked t =>
          simp only [sStep] at hf
          split at hf
          · rename_i th hth
            unfold returnUnacked at hf
            obtain ⟨s', hs'⟩ := @applyCp_noFault s t th { numBlocks := th.hist.numAcked } false hi hth
              ⟨(hst th (List.mem_of_getElem? hth)).1, Int.le_refl _⟩
            rw [hs'] at hf; simp at hf
          · simp at hf
        | exit t =>
          simp only [sStep] at hf
          repeat' split at hf
          all_goals simp at hf
      · simp at h
  exact key evs _ (deqPot.init mb del n) (Stored.init _ mb del n) hl (fun _ _ _ => SFresh.init mb del n)
    he hsz (by simp [SSys.init]) h

/-! ## C52: statistics of files and threads agree -/

/-- Weights for an additive statistic. -/
def statPot (f : SrcStats → Int) (h0 : f {} = 0) (hadd : ∀ a b, f (a.add b) = f a + f b)
    (hflag : ∀ st b, f { st with failed := b } = f st)
    (hmark : ∀ x ts cp, f x.stats - f ts = f (markFailed x ts cp).1.stats - f (markFailed x ts cp).2) : Pot where
  G := fun _ => True
  CG := fun _ _ => True
  queueW := fun x => f x.stats
  openW := fun x => f x.stats
  curW := fun x => f x.stats
  histW := fun x => f x.stats
  failW := fun x => f x.stats
  createdW := fun _ => 0
  statW := fun st => - f st
  credW := fun _ => 0
  deqW := 0
  stat0 := by omega
  cg_none := fun _ => trivial
  g_create := fun _ _ => trivial
  g_open := fun _ _ => trivial
  g_fail := fun _ _ => trivial
  g_sent := fun _ _ _ => trivial
  g_mark := fun _ _ _ _ _ => trivial
  create := fun x hx => by rw [hx.1, h0]
  pop := fun _ => rfl
  openOk := fun x _ => by
    unfold openedSource
    split
    · omega
    · simp only [hflag]; omega
  openFail := fun x _ => by
    unfold openFailedSource
    simp only [hflag]
  sent := fun x o ts _ _ => by
    simp only [hadd]; omega
  mark := fun x ts cp _ _ => by
    have := hmark x ts cp
    omega

theorem stat_agree (f : SrcStats → Int) (h0 : f {} = 0) (hadd : ∀ a b, f (a.add b) = f a + f b)
    (hflag : ∀ st b, f { st with failed := b } = f st)
    (hmark : ∀ x ts cp, f x.stats - f ts = f (markFailed x ts cp).1.stats - f (markFailed x ts cp).2)
    (mb : Int) (del : Bool) (n : Nat) (evs : List SEvent) (s : SSys)
    (hl : SListFirst evs) (h : sRun (SSys.init mb del n) evs = .ok s) :
    sumOf (fun x => f x.stats) s.everywhere = sumOf (fun th => f th.hist.stats) s.threads := by
  have hal : Along (CpOK (statPot f h0 hadd hflag hmark)) (SSys.init mb del n) evs := by
    refine Along.of_inv (fun _ => True) (fun _ => True) ?_ (fun _ _ _ _ _ _ => trivial) evs _ trivial (fun _ _ => trivial)
    intro s e _ _
    cases e <;> simp [CpOK, statPot]
  have ht := ((statPot f h0 hadd hflag hmark).final mb del n evs s hl hal h).total
  unfold Pot.total at ht
  have hev := everywhere_sum (fun x => f x.stats) s
  have hsplit : ∀ l : List SThread, sumOf (statPot f h0 hadd hflag hmark).thW l =
      sumOf (fun th => sumOf (fun x => f x.stats) th.opening.toList + sumOf (fun x => f x.stats) th.cur.toList +
        sumOf (fun x => f x.stats) th.hist.history) l - sumOf (fun th => f th.hist.stats) l := by
    intro l
    induction l with
    | nil => rfl
    | cons a as ih =>
      rw [sumOf_cons, sumOf_cons, sumOf_cons, ih]
      unfold Pot.thW
      simp only [statPot]
      omega
  rw [hsplit] at ht
  simp only [statPot, sumOf_zero] at ht
  omega

/-- At every moment, for every schedule: failed attempts, data bytes, effective data
bytes and blocks summed over all blocks equal the sums over the threads. -/
theorem C52_totals_agree (mb : Int) (del : Bool) (n : Nat) (evs : List SEvent) (s : SSys)
    (hl : SListFirst evs) (h : sRun (SSys.init mb del n) evs = .ok s) :
    sumOf (fun x => x.stats.failedAttempts) s.everywhere = sumOf (fun th => th.hist.stats.failedAttempts) s.threads ∧
    sumOf (fun x => x.stats.dataBytes) s.everywhere = sumOf (fun th => th.hist.stats.dataBytes) s.threads ∧
    sumOf (fun x => x.stats.effDataBytes) s.everywhere = sumOf (fun th => th.hist.stats.effDataBytes) s.threads ∧
    sumOf (fun x => x.stats.numBlocks) s.everywhere = sumOf (fun th => th.hist.stats.numBlocks) s.threads := by
  refine ⟨stat_agree SrcStats.failedAttempts rfl (fun _ _ => rfl) (fun _ _ => rfl) ?_ mb del n evs s hl h,
    stat_agree SrcStats.dataBytes rfl (fun _ _ => rfl) (fun _ _ => rfl) ?_ mb del n evs s hl h,
    stat_agree SrcStats.effDataBytes rfl (fun _ _ => rfl) (fun _ _ => rfl) ?_ mb del n evs s hl h,
    stat_agree SrcStats.numBlocks rfl (fun _ _ => rfl) (fun _ _ => rfl) ?_ mb del n evs s hl h⟩ <;>
  · intro x ts cp
    unfold markFailed advanceOffset
    simp only
    split <;> simp only <;> omega

end Wdt
