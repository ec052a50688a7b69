import Verif.Model.ReceiverVerify
import Mathlib.Data.List.Induction
/-
C47: bytes are counted only once a tag behind them was verified.
-/
namespace Wdt

/-- A tag of the block's connection, behind the block, was verified. -/
def RvMark.Verified (s : RvState) (m : RvMark) : Prop := ∃ p, (m.conn, p) ∈ s.tags ∧ m.block.stop ≤ p

/-- Invariant of the thread. -/
structure RvInv (s : RvState) : Prop where
  given : s.given ≤ s.decrypted
  waiting : ∀ b ∈ s.waiting, b.stop ≤ s.given
  verified : ∀ m ∈ s.marks, m.tagged = true → m.footer = false → m.Verified s
  num : s.numBlocks = s.marks.length
  log : s.log = if s.logging then s.marks.map (·.block.logEntry) else []
  partials : ∀ x ∈ s.partials, x.1 = false ∧ x.2.1 = false
  last : s.last ≠ none → s.partials ≠ []
  eff : s.effective = (s.marks.map (·.block.dataSize)).sum + (s.partials.map (·.2.2)).sum

theorem RvState.mark_fields (s : RvState) (b : RBlock) :
    (s.mark b).given = s.given ∧ (s.mark b).decrypted = s.decrypted ∧ (s.mark b).waiting = s.waiting ∧
    (s.mark b).tags = s.tags ∧ (s.mark b).conn = s.conn ∧ (s.mark b).tagged = s.tagged ∧ (s.mark b).footer = s.footer ∧
    (s.mark b).logging = s.logging ∧ (s.mark b).partials = s.partials ∧ (s.mark b).last = s.last :=
  ⟨rfl, rfl, rfl, rfl, rfl, rfl, rfl, rfl, rfl, rfl⟩

/-- Marking a block that is verified, or need not be. -/
theorem RvInv.mark {s : RvState} (h : RvInv s) (b : RBlock)
    (hb : s.tagged = true → s.footer = false → ∃ p, (s.conn, p) ∈ s.tags ∧ b.stop ≤ p) : RvInv (s.mark b) := by
  obtain ⟨h1, h2, h3, h4, h5, h6, h7, h8⟩ := h
  refine ⟨h1, h2, ?_, ?_, ?_, h6, h7, ?_⟩
  · intro m hm ht hf
    have hm' : m ∈ s.marks ++ [⟨b, s.conn, s.tagged, s.footer⟩] := hm
    rcases List.mem_append.1 hm' with hm | hm
    · exact h3 m hm ht hf
    · rw [List.mem_singleton] at hm
      subst hm
      exact hb ht hf
  · show s.numBlocks + 1 = (s.marks ++ [_]).length
    rw [List.length_append, h4]; rfl
  · show (if s.logging then s.log ++ [b.logEntry] else s.log) = if s.logging then (s.marks ++ [_]).map _ else []
    rw [h5]
    cases s.logging <;> simp
  · show s.effective + b.dataSize = ((s.marks ++ [_]).map _).sum + (s.partials.map _).sum
    rw [h8, List.map_append, List.sum_append]
    simp only [List.map_cons, List.map_nil, List.sum_cons, List.sum_nil]
    omega

/-- Marking several. -/
theorem RvInv.markAll (bs : List RBlock) {s : RvState} (h : RvInv s)
    (hb : ∀ b ∈ bs, s.tagged = true → s.footer = false → ∃ p, (s.conn, p) ∈ s.tags ∧ b.stop ≤ p) :
    RvInv (bs.foldl RvState.mark s) ∧ (bs.foldl RvState.mark s).marks = s.marks ++ bs.map (⟨·, s.conn, s.tagged, s.footer⟩) ∧
      (bs.foldl RvState.mark s).tags = s.tags ∧ (bs.foldl RvState.mark s).tagged = s.tagged ∧
      (bs.foldl RvState.mark s).conn = s.conn ∧ (bs.foldl RvState.mark s).footer = s.footer ∧
      (bs.foldl RvState.mark s).partials = s.partials := by
  induction bs generalizing s with
  | nil => exact ⟨h, by simp, rfl, rfl, rfl, rfl, rfl⟩
  | cons b bs ih =>
    have h' := h.mark b (hb b (by simp))
    obtain ⟨a1, a2, a3, a4, a5, a6, a7⟩ := ih h' (fun x hx => hb x (by simp [hx]))
    refine ⟨a1, ?_, a3, a4, a5, a6, a7⟩
    rw [List.foldl_cons, a2]
    show (s.marks ++ [_]) ++ _ = _
    rw [List.append_assoc]
    rfl

theorem RvInv.init (logging tagged : Bool) : RvInv { logging, tagged } := by
  constructor <;> simp

/-- The steps that mark all waiting blocks. -/
theorem RvInv.markWaiting {s : RvState} (h : RvInv s) (ht : s.tagged = true → (s.conn, s.decrypted) ∈ s.tags) :
    RvInv s.markWaiting ∧ s.markWaiting.marks = s.marks ++ s.waiting.map (⟨·, s.conn, s.tagged, s.footer⟩) := by
  have hb : ∀ b ∈ s.waiting, s.tagged = true → s.footer = false → ∃ p, (s.conn, p) ∈ s.tags ∧ b.stop ≤ p := by
    intro b hb htt _
    exact ⟨s.decrypted, ht htt, by have := h.waiting b hb; have := h.given; omega⟩
  obtain ⟨⟨a1, _, a3, a4, a5, a6, a7, a8⟩, b1, _⟩ := RvInv.markAll s.waiting h hb
  exact ⟨⟨a1, by simp [RvState.markWaiting], a3, a4, a5, a6, a7, a8⟩, b1⟩

theorem RvInv.step {s s' : RvState} {e : RvEv} (h : RvInv s) (hs : rvStep s e = some s') : RvInv s' := by
  have withTag : RvInv { s with tags := s.tags ++ [(s.conn, s.decrypted)] } := by
    obtain ⟨h1, h2, h3, h4, h5, h6, h7, h8⟩ := h
    refine ⟨h1, h2, ?_, h4, h5, h6, h7, h8⟩
    intro m hm ht hf
    obtain ⟨p, hp, hq⟩ := h3 m hm ht hf
    exact ⟨p, List.mem_append_left _ hp, hq⟩
  cases e with
  | decrypt n =>
    cases hs
    obtain ⟨h1, h2, h3, h4, h5, h6, h7, h8⟩ := h
    exact ⟨Nat.le_trans h1 (Nat.le_add_right _ _), h2, h3, h4, h5, h6, h7, h8⟩
  | tagOk =>
    simp only [rvStep] at hs
    split at hs
    · cases hs
      exact (withTag.markWaiting (fun _ => by simp)).1
    · cases hs
  | give n =>
    simp only [rvStep] at hs
    split at hs
    · next hg =>
      cases hs
      obtain ⟨h1, h2, h3, h4, h5, h6, h7, h8⟩ := h
      exact ⟨hg, fun b hb => Nat.le_trans (h2 b hb) (Nat.le_add_right _ _), h3, h4, h5, h6, h7, h8⟩
    · cases hs
  | settings c =>
    cases hs
    obtain ⟨h1, h2, h3, h4, h5, h6, h7, h8⟩ := h
    exact ⟨h1, h2, h3, h4, h5, h6, h7, h8⟩
  | fileCmd =>
    cases hs
    obtain ⟨h1, h2, h3, h4, h5, h6, h7, h8⟩ := h
    exact ⟨h1, h2, h3, h4, h5, h6, fun h => absurd rfl h, h8⟩
  | blockDone b =>
    simp only [rvStep] at hs
    split at hs
    · next hb =>
      simp only [Option.some.injEq] at hs
      subst hs
      split
      · next hf => exact h.mark b (fun _ hf' => by rw [hf] at hf'; cases hf')
      · split
        · obtain ⟨h1, h2, h3, h4, h5, h6, h7, h8⟩ := h
          refine ⟨h1, ?_, h3, h4, h5, h6, h7, h8⟩
          intro x hx
          have hx' : x ∈ s.waiting ++ [b] := hx
          rcases List.mem_append.1 hx' with hx | hx
          · exact h2 x hx
          · rw [List.mem_singleton] at hx; subst hx; exact hb
        · next hf ht => exact h.mark b (fun ht' => absurd ht' ht)
    · cases hs
  | blockBroken b w =>
    simp only [rvStep, Option.some.injEq] at hs
    subst hs
    split
    · next hc =>
      simp only [Bool.and_eq_true, Bool.not_eq_true'] at hc
      obtain ⟨h1, h2, h3, h4, h5, h6, h7, h8⟩ := h
      refine ⟨h1, h2, h3, h4, h5, ?_, ?_, ?_⟩
      · intro x hx
        have hx' : x ∈ s.partials ++ [(s.tagged, s.footer, w)] := hx
        rcases List.mem_append.1 hx' with hx | hx
        · exact h6 x hx
        · rw [List.mem_singleton] at hx; rw [hx]; exact hc
      · intro _
        show s.partials ++ [_] ≠ []
        simp
      · show s.effective + w = _ + ((s.partials ++ [_]).map _).sum
        rw [h8, List.map_append, List.sum_append]
        simp only [List.map_cons, List.map_nil, List.sum_cons, List.sum_nil]
        omega
    · exact h
  | endOfStream =>
    simp only [rvStep, Option.some.injEq] at hs
    subst hs
    split
    · exact (withTag.markWaiting (fun _ => by simp)).1
    · next ht => exact (h.markWaiting (fun ht' => absurd ht' ht)).1
  | accept plain =>
    cases hs
    obtain ⟨h1, h2, h3, h4, h5, h6, h7, h8⟩ := h
    exact ⟨Nat.le_refl _, by simp, h3, h4, h5, h6, h7, h8⟩

theorem RvInv.run (es : List RvEv) {s s' : RvState} (h : RvInv s) (hs : rvRun s es = some s') : RvInv s' := by
  induction es generalizing s with
  | nil => cases hs; exact h
  | cons e es ih =>
    unfold rvRun at hs
    split at hs
    · next s1 h1 => exact ih (h.step h1) hs
    · cases hs

/-- The peer always encrypts, and no checksums are used. -/
def TagsOnly : RvEv → Prop
  | .settings c => c = false
  | .accept plain => plain = false
  | _ => True

theorem tagsOnly_step {s s' : RvState} {e : RvEv} (he : TagsOnly e)
    (h : s.tagged = true ∧ s.footer = false ∧ (∀ m ∈ s.marks, m.tagged = true ∧ m.footer = false) ∧ s.partials = [])
    (hi : RvInv s) (hs : rvStep s e = some s') :
    s'.tagged = true ∧ s'.footer = false ∧ (∀ m ∈ s'.marks, m.tagged = true ∧ m.footer = false) ∧ s'.partials = [] := by
  obtain ⟨h1, h2, h3, h4⟩ := h
  have withTag : RvInv { s with tags := s.tags ++ [(s.conn, s.decrypted)] } := by
    obtain ⟨h1, h2, h3, h4, h5, h6, h7, h8⟩ := hi
    refine ⟨h1, h2, ?_, h4, h5, h6, h7, h8⟩
    intro m hm ht hf
    obtain ⟨p, hp, hq⟩ := h3 m hm ht hf
    exact ⟨p, List.mem_append_left _ hp, hq⟩
  have marking : ∀ s1 : RvState, RvInv s1 → (s1.tagged = true → (s1.conn, s1.decrypted) ∈ s1.tags) →
      s1.tagged = true → s1.footer = false → s1.marks = s.marks → s1.partials = [] →
      s1.markWaiting.tagged = true ∧ s1.markWaiting.footer = false ∧
        (∀ m ∈ s1.markWaiting.marks, m.tagged = true ∧ m.footer = false) ∧ s1.markWaiting.partials = [] := by
    intro s1 hi1 ht1 e1 e2 e3 e4
    have hm := (hi1.markWaiting ht1).2
    have hf := RvInv.markAll s1.waiting hi1 (fun b hb _ _ =>
      ⟨s1.decrypted, ht1 e1, by have := hi1.waiting b hb; have := hi1.given; omega⟩)
    obtain ⟨_, _, _, a4, _, a6, a7⟩ := hf
    refine ⟨a4.trans e1, a6.trans e2, ?_, a7.trans e4⟩
    intro m hm'
    rw [hm, e3, e1, e2] at hm'
    rcases List.mem_append.1 hm' with hm' | hm'
    · exact h3 m hm'
    · obtain ⟨b, _, rfl⟩ := List.mem_map.1 hm'
      exact ⟨rfl, rfl⟩
  cases e with
  | decrypt n => cases hs; exact ⟨h1, h2, h3, h4⟩
  | tagOk =>
    simp only [rvStep, h1, if_true, Option.some.injEq] at hs
    subst hs
    have hm := marking { s with tags := s.tags ++ [(s.conn, s.decrypted)] } withTag (fun _ => by simp) h1 h2 rfl h4
    simpa [h1] using hm
  | give n =>
    simp only [rvStep] at hs
    split at hs
    · cases hs; exact ⟨h1, h2, h3, h4⟩
    · cases hs
  | settings c => cases hs; exact ⟨h1, he, h3, h4⟩
  | fileCmd => cases hs; exact ⟨h1, h2, h3, h4⟩
  | blockDone b =>
    simp only [rvStep] at hs
    split at hs
    · simp only [h2, Bool.false_eq_true, if_false, h1, if_true, Option.some.injEq] at hs
      subst hs
      exact ⟨by simpa using h1, by simpa using h2, h3, h4⟩
    · cases hs
  | blockBroken b w =>
    simp only [rvStep, h1, Bool.not_true, Bool.false_and, Bool.false_eq_true, if_false, Option.some.injEq] at hs
    subst hs
    exact ⟨h1, h2, h3, h4⟩
  | endOfStream =>
    simp only [rvStep, h1, if_true, Option.some.injEq] at hs
    subst hs
    have hm := marking { s with tags := s.tags ++ [(s.conn, s.decrypted)] } withTag (fun _ => by simp) h1 h2 rfl h4
    simpa [h1] using hm
  | accept plain =>
    have he' : plain = false := he
    subst he'
    cases hs
    exact ⟨by simp [h1], h2, h3, h4⟩

theorem tagsOnly_run (es : List RvEv) {s s' : RvState} (he : ∀ e ∈ es, TagsOnly e)
    (h : s.tagged = true ∧ s.footer = false ∧ (∀ m ∈ s.marks, m.tagged = true ∧ m.footer = false) ∧ s.partials = [])
    (hi : RvInv s) (hs : rvRun s es = some s') :
    s'.tagged = true ∧ s'.footer = false ∧ (∀ m ∈ s'.marks, m.tagged = true ∧ m.footer = false) ∧ s'.partials = [] := by
  induction es generalizing s with
  | nil => cases hs; exact h
  | cons e es ih =>
    unfold rvRun at hs
    split at hs
    · next s1 h1 =>
      exact ih (fun x hx => he x (by simp [hx])) (tagsOnly_step (he e (by simp)) h hi h1) (hi.step h1) hs
    · cases hs

/-- **C47 (in part).**  A receiver thread whose encryption has tags, in any history: reads
that end anywhere, connections that break anywhere, any number of them, tags at any places.
At every moment each block that the checkpoint, the transfer log or the statistics count has
a verified tag of its own connection behind its last byte; the checkpoint names no partial
block; the number of blocks in the checkpoint, the entries of the log and the number of
bytes in the statistics are those of these blocks.

Missing: senders that also send checksums (`C47_violated_checksum`) and receivers that allow
peers without encryption (`C47_violated_plain_peer`). -/
theorem C47_counted_after_tag_partial (logging : Bool) (es : List RvEv) (s : RvState) (he : ∀ e ∈ es, TagsOnly e)
    (hs : rvRun { logging, tagged := true } es = some s) :
    (∀ m ∈ s.marks, ∃ p, (m.conn, p) ∈ s.tags ∧ m.block.stop ≤ p) ∧ s.last = none ∧ s.numBlocks = s.marks.length ∧
      s.log = (if s.logging then s.marks.map (fun m => if m.block.toBeDeleted then .invalidate m.block.seqId
        else .blockWrite m.block.seqId m.block.offset m.block.dataSize) else []) ∧
      s.effective = (s.marks.map (·.block.dataSize)).sum := by
  have hi := (RvInv.init logging true).run es hs
  obtain ⟨h1, h2, h3, h4⟩ := tagsOnly_run es he ⟨rfl, rfl, by simp, rfl⟩ (RvInv.init logging true) hs
  refine ⟨fun m hm => hi.verified m hm (h3 m hm).1 (h3 m hm).2, ?_, hi.num, hi.log, by have := hi.eff; rw [h4] at this; simpa using this⟩
  cases hl : s.last with
  | none => rfl
  | some x => exact absurd h4 (hi.last (by rw [hl]; simp))

/-- **C47 (without those assumptions).**  Checksums and peers without encryption allowed: a
block that was received on a connection with tags and without checksums is counted only
after a tag behind it was verified, and bytes of a partial block are counted only on a
connection that has neither. -/
theorem C47_each_connection (logging tagged : Bool) (es : List RvEv) (s : RvState)
    (hs : rvRun { logging, tagged } es = some s) :
    (∀ m ∈ s.marks, m.tagged = true → m.footer = false → ∃ p, (m.conn, p) ∈ s.tags ∧ m.block.stop ≤ p) ∧
      (∀ x ∈ s.partials, x.1 = false ∧ x.2.1 = false) ∧ (s.last ≠ none → s.partials ≠ []) ∧
      s.effective = (s.marks.map (·.block.dataSize)).sum + (s.partials.map (·.2.2)).sum := by
  have hi := (RvInv.init logging tagged).run es hs
  exact ⟨hi.verified, hi.partials, hi.last, hi.eff⟩

/-- **C47 (nothing is left out).**  After a verified tag, and at the end of a stream, every
block that was waiting is counted, once each and in order. -/
theorem C47_all_counted (logging tagged : Bool) (es : List RvEv) (s s' : RvState)
    (hs : rvRun { logging, tagged } es = some s) (e : RvEv) (he : e = .tagOk ∨ e = .endOfStream) (hs' : rvStep s e = some s') :
    s'.waiting = [] ∧ s'.marks.map (·.block) = s.marks.map (·.block) ++ s.waiting ∧
      s'.numBlocks = s.numBlocks + s.waiting.length := by
  have hi := (RvInv.init logging tagged).run es hs
  have hi' := hi.step hs'
  have withTag : RvInv { s with tags := s.tags ++ [(s.conn, s.decrypted)] } := by
    obtain ⟨h1, h2, h3, h4, h5, h6, h7, h8⟩ := hi
    refine ⟨h1, h2, ?_, h4, h5, h6, h7, h8⟩
    intro m hm ht hf
    obtain ⟨p, hp, hq⟩ := h3 m hm ht hf
    exact ⟨p, List.mem_append_left _ hp, hq⟩
  have fin : ∀ s1 : RvState, RvInv s1 → (s1.tagged = true → (s1.conn, s1.decrypted) ∈ s1.tags) → s1.marks = s.marks →
      s1.waiting = s.waiting → s' = s1.markWaiting → s'.waiting = [] ∧
        s'.marks.map (·.block) = s.marks.map (·.block) ++ s.waiting ∧ s'.numBlocks = s.numBlocks + s.waiting.length := by
    intro s1 hi1 ht1 e1 e2 e3
    have hm := (hi1.markWaiting ht1).2
    rw [← e3, e1, e2] at hm
    refine ⟨by rw [e3]; rfl, ?_, ?_⟩
    · rw [hm, List.map_append, List.map_map]
      congr 1
      exact List.map_id _
    · rw [hi'.num, hi.num, hm]; simp
  rcases he with rfl | rfl
  · simp only [rvStep] at hs'
    split at hs'
    · cases hs'
      exact fin _ withTag (fun _ => by simp) rfl rfl rfl
    · cases hs'
  · simp only [rvStep, Option.some.injEq] at hs'
    by_cases ht : s.tagged = true
    · rw [if_pos ht] at hs'
      exact fin _ withTag (fun _ => by simp) rfl rfl hs'.symm
    · rw [if_neg ht] at hs'
      exact fin _ hi (fun h => absurd h ht) rfl rfl hs'.symm

/-- The block that an event completes. -/
def RvEv.done? : RvEv → Option RBlock
  | .blockDone b => some b
  | _ => none

theorem rvRun_append (es es' : List RvEv) (s : RvState) : rvRun s (es ++ es') = (rvRun s es).bind (rvRun · es') := by
  induction es generalizing s with
  | nil => rfl
  | cons e es ih =>
    simp only [List.cons_append, rvRun]
    cases rvStep s e with
    | none => rfl
    | some s' => exact ih s'

theorem markAll_blocks (bs : List RBlock) (s : RvState) :
    (bs.foldl RvState.mark s).marks.map (·.block) = s.marks.map (·.block) ++ bs ∧ (bs.foldl RvState.mark s).last = s.last := by
  induction bs generalizing s with
  | nil => exact ⟨by simp, rfl⟩
  | cons b bs ih =>
    obtain ⟨h1, h2⟩ := ih (s.mark b)
    refine ⟨?_, h2⟩
    rw [List.foldl_cons, h1]
    show (s.marks ++ [_]).map _ ++ bs = _
    simp

/-- One step: how often blocks are counted or waiting, and the partial block. -/
theorem rvStep_blocks {s s' : RvState} {e : RvEv} (hs : rvStep s e = some s') :
    (∀ x, (s'.marks.map (·.block)).count x + s'.waiting.count x ≤
      (s.marks.map (·.block)).count x + s.waiting.count x + e.done?.toList.count x) ∧
    (s'.last = s.last ∧ e ≠ .fileCmd ∨ s'.last = none ∨ ∃ b w, e = .blockBroken b w ∧ s'.last = some (b.seqId, b.offset, w)) := by
  have mw : ∀ (s1 : RvState) (x : RBlock), (s1.markWaiting.marks.map (·.block)).count x + s1.markWaiting.waiting.count x =
      (s1.marks.map (·.block)).count x + s1.waiting.count x := by
    intro s1 x
    have h := (markAll_blocks s1.waiting s1).1
    show ((s1.waiting.foldl RvState.mark s1).marks.map (·.block)).count x + ([] : List RBlock).count x = _
    rw [h, List.count_append]; simp
  have ml : ∀ s1 : RvState, s1.markWaiting.last = s1.last := fun s1 => (markAll_blocks s1.waiting s1).2
  cases e with
  | decrypt n => cases hs; exact ⟨fun x => Nat.le_add_right _ _, .inl ⟨rfl, by simp⟩⟩
  | tagOk =>
    simp only [rvStep] at hs
    split at hs
    · cases hs
      exact ⟨fun x => by rw [mw]; exact Nat.le_add_right _ _, .inl ⟨ml _, by simp⟩⟩
    · cases hs
  | give n =>
    simp only [rvStep] at hs
    split at hs
    · cases hs; exact ⟨fun x => Nat.le_add_right _ _, .inl ⟨rfl, by simp⟩⟩
    · cases hs
  | settings c => cases hs; exact ⟨fun x => Nat.le_add_right _ _, .inl ⟨rfl, by simp⟩⟩
  | fileCmd => cases hs; exact ⟨fun x => Nat.le_add_right _ _, .inr (.inl rfl)⟩
  | blockDone b =>
    simp only [rvStep] at hs
    split at hs
    · simp only [Option.some.injEq] at hs
      subst hs
      have hmark : ∀ x, ((s.mark b).marks.map (·.block)).count x + (s.mark b).waiting.count x ≤
          (s.marks.map (·.block)).count x + s.waiting.count x + (RvEv.blockDone b).done?.toList.count x := by
        intro x
        show ((s.marks ++ [_]).map _).count x + s.waiting.count x ≤ _
        rw [List.map_append, List.count_append]
        simp only [List.map_cons, List.map_nil, RvEv.done?, Option.toList_some]
        omega
      split
      · exact ⟨hmark, .inl ⟨rfl, by simp⟩⟩
      · split
        · refine ⟨fun x => ?_, .inl ⟨rfl, by simp⟩⟩
          show (s.marks.map _).count x + (s.waiting ++ [b]).count x ≤ _
          rw [List.count_append]
          simp only [RvEv.done?, Option.toList_some]
          omega
        · exact ⟨hmark, .inl ⟨rfl, by simp⟩⟩
    · cases hs
  | blockBroken b w =>
    simp only [rvStep, Option.some.injEq] at hs
    subst hs
    split
    · exact ⟨fun x => Nat.le_add_right _ _, .inr (.inr ⟨b, w, rfl, rfl⟩)⟩
    · exact ⟨fun x => Nat.le_add_right _ _, .inl ⟨rfl, by simp⟩⟩
  | endOfStream =>
    simp only [rvStep, Option.some.injEq] at hs
    subst hs
    split
    · exact ⟨fun x => by rw [mw]; exact Nat.le_add_right _ _, .inl ⟨ml _, by simp⟩⟩
    · exact ⟨fun x => by rw [mw]; exact Nat.le_add_right _ _, .inl ⟨ml _, by simp⟩⟩
  | accept plain =>
    cases hs
    refine ⟨fun x => ?_, .inl ⟨rfl, by simp⟩⟩
    show (s.marks.map _).count x + ([] : List RBlock).count x ≤ _
    simp only [List.count_nil]
    omega

theorem rvRun_blocks (s0 : RvState) (hn : s0.marks = [] ∧ s0.waiting = [] ∧ s0.last = none) (es : List RvEv) (s : RvState)
    (hs : rvRun s0 es = some s) :
    (∀ x, (s.marks.map (·.block)).count x + s.waiting.count x ≤ (es.filterMap RvEv.done?).count x) ∧
    (∀ p, s.last = some p → ∃ pre b w post, es = pre ++ .blockBroken b w :: post ∧ .fileCmd ∉ post ∧ p = (b.seqId, b.offset, w)) := by
  induction es using List.reverseRecOn generalizing s with
  | nil =>
    cases hs
    obtain ⟨h1, h2, h3⟩ := hn
    exact ⟨by simp [h1, h2], by simp [h3]⟩
  | append_singleton es e ih =>
    rw [rvRun_append] at hs
    cases hr : rvRun s0 es with
    | none => rw [hr] at hs; cases hs
    | some s1 =>
      rw [hr] at hs
      simp only [Option.bind_some, rvRun] at hs
      obtain ⟨i1, i2⟩ := ih s1 hr
      cases he : rvStep s1 e with
      | none => rw [he] at hs; cases hs
      | some s2 =>
        rw [he] at hs
        cases hs
        obtain ⟨b1, b2⟩ := rvStep_blocks he
        refine ⟨fun x => ?_, fun p hp => ?_⟩
        · have h1 := i1 x
          have h2 := b1 x
          have h3 : ([e].filterMap RvEv.done?) = e.done?.toList := by cases hd : e.done? <;> simp [hd]
          rw [List.filterMap_append, List.count_append, h3]
          omega
        · rcases b2 with ⟨h1, h2⟩ | h1 | ⟨b, w, h1, h2⟩
          · obtain ⟨pre, b, w, post, h3, h4, h5⟩ := i2 p (h1 ▸ hp)
            exact ⟨pre, b, w, post ++ [e], by rw [h3]; simp, by simp [h4, Ne.symm h2], h5⟩
          · rw [h1] at hp; cases hp
          · rw [h2] at hp
            cases hp
            exact ⟨es, b, w, [], by rw [h1], by simp, rfl⟩

/-- **C47 (once each).**  No block is counted more often than it was received completely,
with whatever tags, checksums and connections; blocks that wait included. -/
theorem C47_counted_once (logging tagged : Bool) (es : List RvEv) (s : RvState)
    (hs : rvRun { logging, tagged } es = some s) (x : RBlock) :
    (s.marks.map (·.block)).count x + s.waiting.count x ≤ (es.filterMap RvEv.done?).count x :=
  (rvRun_blocks _ ⟨rfl, rfl, rfl⟩ es s hs).1 x

/-- **C47 (the partial block).**  The partial block of the checkpoint is one whose receiving
broke off, with the number of bytes written, and after which no other block was begun. -/
theorem C47_partial_block (logging tagged : Bool) (es : List RvEv) (s : RvState)
    (hs : rvRun { logging, tagged } es = some s) (p : Int × Int × Int) (hp : s.last = some p) :
    ∃ pre b w post, es = pre ++ .blockBroken b w :: post ∧ .fileCmd ∉ post ∧ p = (b.seqId, b.offset, w) :=
  (rvRun_blocks _ ⟨rfl, rfl, rfl⟩ es s hs).2 p hp

/-- A connection without tags breaks in the second block. -/
example : (rvRun { logging := false, tagged := false } [.decrypt 25, .give 25, .fileCmd, .blockDone ⟨0, 0, 10, false, 20⟩, .fileCmd,
    .blockBroken ⟨0, 10, 10, false, 45⟩ 3]).map (fun s => (s.last, s.numBlocks, s.effective)) = some (some (0, 10, 3), 1, 13) := by
  decide +kernel

/-! ### Cases -/

/-- Two blocks of 10 bytes, the second of which has not been verified when the connection
breaks; it is sent again on the next connection. -/
def verifyRun : List RvEv :=
  [.settings false, .decrypt 25, .give 25, .fileCmd, .blockDone ⟨0, 0, 10, false, 20⟩, .decrypt 7, .tagOk, .give 7, .decrypt 20,
    .give 20, .fileCmd, .blockDone ⟨0, 10, 10, false, 45⟩, .accept false, .settings false, .decrypt 30, .give 30, .fileCmd,
    .blockDone ⟨0, 10, 10, false, 22⟩, .endOfStream]

example : (rvRun { logging := true, tagged := true } verifyRun).map (fun s => (s.log, s.numBlocks, s.tags, s.effective)) =
    some ([.blockWrite 0 0 10, .blockWrite 0 10 10], 2, [(0, 32), (1, 30)], 20) := by decide +kernel

example : ∀ e ∈ verifyRun, TagsOnly e := by
  intro e he
  simp only [verifyRun, List.mem_cons, List.not_mem_nil, or_false] at he
  rcases he with rfl | rfl | rfl | rfl | rfl | rfl | rfl | rfl | rfl | rfl | rfl | rfl | rfl | rfl | rfl | rfl | rfl | rfl | rfl <;>
    simp [TagsOnly]

/-- Disagreement with the code: if the sender also sends checksums, a block is counted when
its checksum is right, before any tag was verified.  The checksum is CRC32C inside the
encrypted stream, which an attacker who changes the stream can keep right: a counter mode
cipher lets them add any difference, and CRC is linear. -/
theorem C47_violated_checksum : ∃ es s, rvRun { logging := true, tagged := true } es = some s ∧ s.tags = [] ∧
    s.log = [.blockWrite 0 0 10] ∧ s.numBlocks = 1 :=
  ⟨[.settings true, .decrypt 25, .give 25, .fileCmd, .blockDone ⟨0, 0, 10, false, 20⟩], _, rfl, rfl, rfl, rfl⟩

/-- Disagreement with the code: where peers without encryption are allowed, one such
connection switches tags off for that connection and all later ones. -/
theorem C47_violated_plain_peer : ∃ es s, rvRun { logging := true, tagged := true } es = some s ∧ s.tags = [] ∧
    s.log = [.blockWrite 0 0 10] ∧ s.numBlocks = 1 ∧ s.conn = 2 ∧ RvEv.accept true ∈ es ∧ s.tagged = false :=
  ⟨[.accept true, .accept false, .settings false, .decrypt 25, .give 25, .fileCmd, .blockDone ⟨0, 0, 10, false, 20⟩], _, rfl, rfl,
    rfl, rfl, rfl, by simp, rfl⟩

end Wdt
