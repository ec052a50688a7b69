import Verif.Lemmas.LogFinish
/-
Properties of the transfer log over several receiver processes: C65, C66.

A history (`LogReach`) is any sequence of starts of receiver processes, connections,
entries handed to the log, blocks written to disk, rounds of the writer thread, ends of
transfers (with and without compaction) and deaths of the process, in which every write
to the log may stop after any number of bytes.
-/
namespace Wdt

/-- What the receiver is about to offer to the sender that just connected. -/
def LogSys.Offers (s : LogSys) (x : FileChunksInfo) : Prop :=
  s.m.up = true ∧ s.connected = true ∧ s.settled = false ∧ x ∈ s.m.claims

theorem offered {v g : Bool} {s : LogSys} (h : LogReach v g s) (hd : s.m.env.dirTree = false) {x : FileChunksInfo} (ho : s.Offers x) :
    s.m.env.disk x.fileName = some x.fileSize ∧
    (∀ c ∈ x.chunks, 0 ≤ c.start ∧ c.start ≤ c.stop ∧ c.stop ≤ x.fileSize) ∧
    ∃ a τ n ts sz b, s.tr = a ++ .added (.fileCreation ts x.fileName x.seqId sz) τ n :: b ∧ s.tag.same v τ ∧
      (∀ p, Covered x.chunks p → ∃ ts' o z τ' n', TItem.added (.blockWrite ts' x.seqId o z) τ' n' ∈ b ∧
        s.tag.same v τ' ∧ o ≤ p ∧ p < o + z) ∧
      (g = true → ∀ τd nd res, TItem.data τd nd res ∈ b → nd = n ∨ (s.tag.same v τd ∧ res = true)) := by
  obtain ⟨hu, hc, hs, hx⟩ := ho
  obtain ⟨es0, es1, t, tr0, tr1, hup⟩ := (reach_inv h).1 hu
  rcases hup.claims hd with k | ⟨k, _⟩ | ⟨es, lost, k1, k2, k3, k4, k5, k6⟩
  · rw [k] at hx; cases hx
  · rw [hc] at k; cases k
  · obtain ⟨size, ranges, hlive, d1, _, _, hcov, hb⟩ := k4.sound x hx
    refine ⟨d1, hb, ?_⟩
    obtain ⟨τ0, post, e1, e2, e3, ⟨a, τs, ns, ts, sz, b, b1, b2, b3, b4, b5⟩, τ', l1, l2⟩ := live_backed k3 hlive
    have hl0 : lastHdr es0 = some τ' := by
      rw [k1, lastHdr_append, lastHdr_none, l1]
      · rfl
      · intro ts w r s c hm
        obtain ⟨_, _, hx⟩ := k2 _ hm; cases hx
    have hsame : s.tag.same v τ0 :=
      ⟨e1.symm, e2.symm, fun hv => by rw [l2.2.2 hv]; exact ((k6 hs).2 hc hv τ' hl0).symm⟩
    refine ⟨a, τs, ns, ts, sz, b ++ tr1, by rw [hup.tr, b1]; simp, Tag.same_trans hsame b2, ?_, ?_⟩
    · intro p hp
      obtain ⟨c, hc1, hc2, hc3⟩ := (hcov p).1 hp
      rw [e3] at hc1
      obtain ⟨e, he1, he2⟩ := List.mem_flatMap.1 hc1
      cases e with
      | blockWrite ts4 j o z =>
        simp only [LogEntry.range] at he2
        split at he2
        · rename_i hj; subst hj
          rw [List.mem_singleton] at he2; subst he2
          obtain ⟨ts5, o5, z5, τ5, n5, g1, g2, g3, g4⟩ := b4 _ _ _ he1 p hc2 hc3
          exact ⟨ts5, o5, z5, τ5, n5, by simp [g1], Tag.same_trans hsame g2, g3, g4⟩
        · simp at he2
      | _ => simp [LogEntry.range] at he2
    · intro hg τd nd res hm
      rcases List.mem_append.1 hm with hm | hm
      · rcases b5 hg τd nd res hm with hy | ⟨hy, hr⟩
        · exact Or.inl hy
        · exact Or.inr ⟨Tag.same_trans hsame hy, hr⟩
      · have := (hup.data hg _ _ _ hm).1
        rw [hs] at this; cases this

/-- Whatever crashed or was cut short before: a receiver that verifies the address of the
sender offers blocks of a file only if the file is there with this size, and its creation
and afterwards every position offered were recorded in sessions of this very transfer
(recovery id, configuration) with this very sender. -/
theorem C65_offered_blocks_recorded {g : Bool} {s : LogSys} (h : LogReach true g s) (hd : s.m.env.dirTree = false)
    {x : FileChunksInfo} (ho : s.Offers x) :
    s.m.env.disk x.fileName = some x.fileSize ∧
    (∀ c ∈ x.chunks, 0 ≤ c.start ∧ c.start ≤ c.stop ∧ c.stop ≤ x.fileSize) ∧
    ∃ a n ts sz b, s.tr = a ++ .added (.fileCreation ts x.fileName x.seqId sz) ⟨s.m.env.recoveryId, s.m.env.config, s.peer⟩ n :: b ∧
      ∀ p, Covered x.chunks p → ∃ ts' o z n',
        TItem.added (.blockWrite ts' x.seqId o z) ⟨s.m.env.recoveryId, s.m.env.config, s.peer⟩ n' ∈ b ∧ o ≤ p ∧ p < o + z := by
  obtain ⟨h1, h2, a, τ, n, ts, sz, b, e1, e2, e3, _⟩ := offered h hd ho
  have heq : ∀ {τ : Tag}, s.tag.same true τ → τ = ⟨s.m.env.recoveryId, s.m.env.config, s.peer⟩ := by
    intro τ hτ
    obtain ⟨r1, r2, r3⟩ := hτ
    cases τ
    have r3 := r3 rfl
    simp only [LogSys.tag] at r1 r2 r3
    rw [r1, r2, r3]
  refine ⟨h1, h2, a, n, ts, sz, b, by rw [e1, heq e2], ?_⟩
  intro p hp
  obtain ⟨ts', o, z, τ', n', m1, m2, m3, m4⟩ := e3 p hp
  exact ⟨ts', o, z, n', by rw [← heq m2]; exact m1, m3, m4⟩

/-- The same if the address of the sender is not verified: then sessions with other senders
count as well. -/
theorem C65_unverified {g : Bool} {s : LogSys} (h : LogReach false g s) (hd : s.m.env.dirTree = false)
    {x : FileChunksInfo} (ho : s.Offers x) :
    s.m.env.disk x.fileName = some x.fileSize ∧
    ∃ a ip n ts sz b, s.tr = a ++ .added (.fileCreation ts x.fileName x.seqId sz) ⟨s.m.env.recoveryId, s.m.env.config, ip⟩ n :: b ∧
      ∀ p, Covered x.chunks p → ∃ ts' o z ip' n',
        TItem.added (.blockWrite ts' x.seqId o z) ⟨s.m.env.recoveryId, s.m.env.config, ip'⟩ n' ∈ b ∧ o ≤ p ∧ p < o + z := by
  obtain ⟨h1, _, a, τ, n, ts, sz, b, e1, e2, e3, _⟩ := offered h hd ho
  obtain ⟨r, c, i⟩ := τ
  obtain ⟨f1, f2, _⟩ := e2
  simp only [LogSys.tag] at f1 f2
  subst f1; subst f2
  refine ⟨h1, a, i, n, ts, sz, b, e1, ?_⟩
  intro p hp
  obtain ⟨ts', o, z, ⟨r', c', i'⟩, n', m1, m2, m3, m4⟩ := e3 p hp
  obtain ⟨f1, f2, _⟩ := m2
  simp only [LogSys.tag] at f1 f2
  subst f1; subst f2
  exact ⟨ts', o, z, i', n', m1, m3, m4⟩

/-- Every block written to disk since the offered file was created was written in the same
session, or in a session of this transfer with this sender that was resuming -- provided
data is only written by sessions that found the log usable, and only after the receiver
noted in the log whether the sender resumes.  Without these it is false, see
`C66_violated_invalid_log` and `C66_violated_race`. -/
theorem C66_offered_data_current_partial {s : LogSys} (h : LogReach true true s) (hd : s.m.env.dirTree = false)
    {x : FileChunksInfo} (ho : s.Offers x) :
    ∃ a n ts sz b, s.tr = a ++ .added (.fileCreation ts x.fileName x.seqId sz) ⟨s.m.env.recoveryId, s.m.env.config, s.peer⟩ n :: b ∧
      (∀ p, Covered x.chunks p → ∃ ts' o z n',
        TItem.added (.blockWrite ts' x.seqId o z) ⟨s.m.env.recoveryId, s.m.env.config, s.peer⟩ n' ∈ b ∧ o ≤ p ∧ p < o + z) ∧
      ∀ τd nd res, TItem.data τd nd res ∈ b → nd = n ∨ (τd = ⟨s.m.env.recoveryId, s.m.env.config, s.peer⟩ ∧ res = true) := by
  obtain ⟨h1, h2, a, τ, n, ts, sz, b, e1, e2, e3, e4⟩ := offered h hd ho
  have heq : ∀ {τ : Tag}, s.tag.same true τ → τ = ⟨s.m.env.recoveryId, s.m.env.config, s.peer⟩ := by
    intro τ hτ
    obtain ⟨r1, r2, r3⟩ := hτ
    cases τ
    have r3 := r3 rfl
    simp only [LogSys.tag] at r1 r2 r3
    rw [r1, r2, r3]
  refine ⟨a, n, ts, sz, b, by rw [e1, heq e2], ?_, ?_⟩
  · intro p hp
    obtain ⟨ts', o, z, τ', n', m1, m2, m3, m4⟩ := e3 p hp
    exact ⟨ts', o, z, n', by rw [← heq m2]; exact m1, m3, m4⟩
  · intro τd nd res hm
    rcases e4 rfl τd nd res hm with hx | ⟨hx, hr⟩
    · exact Or.inl hx
    · exact Or.inr ⟨heq hx, hr⟩

/-! ### Concrete histories -/

instance (v : Int) : Decidable (LogSys.Allowed.I63' v) := inferInstanceAs (Decidable (_ ∧ _))

/-- Several operations. -/
def LogSys.run (s : LogSys) (ops : List LogOp) : LogSys := ops.foldl LogSys.step s

/-- The operations can happen one after the other. -/
def LogSys.CanRun (v g : Bool) : LogSys → List LogOp → Prop
  | _, [] => True
  | s, op :: ops => s.Allowed op ∧ s.Guard v g op ∧ LogSys.CanRun v g (s.step op) ops

theorem reach_run {v g : Bool} (ops : List LogOp) : ∀ {s : LogSys}, LogReach v g s → LogSys.CanRun v g s ops → LogReach v g (s.run ops) := by
  induction ops with
  | nil => intro s h _; exact h
  | cons op ops ih => intro s h hr; exact ih (.step op h hr.1 hr.2.1) hr.2.2

/-- Receiver of the examples, which does not preallocate: recovery id "r", file "a" on disk
with `d` bytes. -/
def sesEnv (d : Int) : LogEnv where
  recoveryId := [114]
  config := 0
  prealloc := false
  disk n := if n = [97] then some d else none

/-- No process yet, no log. -/
def sesInit : LogSys := { m := { env := sesEnv 0 } }

/-- A sender at "i" that does not resume writes file "a" of 10 bytes; the process dies. -/
def sesFirst : List LogOp :=
  [.boot (sesEnv 0) {} [] 1 100, .connect [105] false 1 100 100, .settle false 1 1 100 100 100,
   .add (.fileCreation 2 [97] 0 10), .data, .add (.blockWrite 3 0 0 10), .flush 100, .kill]

/-- The sender connects again, resuming. -/
def sesAgain : List LogOp := [.boot (sesEnv 10) {} [] 4 100, .connect [105] true 4 100 100]

/-- In between, with the file cut to 5 bytes, another sender at "j" that does not resume
writes it anew. -/
def sesOther : List LogOp :=
  [.boot (sesEnv 5) {} [] 4 100, .connect [106] false 4 100 100, .settle false 4 4 100 100 100, .data, .kill]

/-- In between, the sender at "i" connects without resuming; one of its connections has
written data when the process dies, before another got to tell that it does not resume. -/
def sesRace : List LogOp := [.boot (sesEnv 10) {} [] 4 100, .connect [105] false 4 100 100, .data, .kill]

theorem sesAgain_reach : LogReach true true (sesInit.run (sesFirst ++ sesAgain)) := by
  refine reach_run _ (.init _) ?_
  simp only [sesFirst, sesAgain, List.cons_append, List.nil_append, LogSys.CanRun, LogSys.Allowed, LogSys.Guard]
  and_intros <;> decide +kernel

/-- The hypotheses of C65 and C66 can be met: the whole file is offered. -/
example : LogReach true true (sesInit.run (sesFirst ++ sesAgain)) ∧ (sesInit.run (sesFirst ++ sesAgain)).m.env.dirTree = false ∧
    (sesInit.run (sesFirst ++ sesAgain)).Offers ⟨0, [97], 10, [⟨0, 10⟩]⟩ :=
  ⟨sesAgain_reach, by decide +kernel, by unfold LogSys.Offers; decide +kernel⟩

/-- A log is found invalid because a file is too short on disk; it is left alone, on the
ground that this "ensures that the directory remains invalid"
(TransferLogManager.cpp:600-604).  But it does not remain invalid: another sender writes
the file, which is long enough then, and a later session offers the blocks of the first
sender. -/
theorem C66_violated_invalid_log :
    ∃ s x, LogReach true false s ∧ s.m.env.dirTree = false ∧ s.Offers x ∧ Covered x.chunks 0 ∧
      ∃ a τ n res, s.tr = a ++ [.data τ n res] ∧ τ.ip ≠ s.peer := by
  refine ⟨sesInit.run (sesFirst ++ sesOther ++ sesAgain), ⟨0, [97], 10, [⟨0, 10⟩]⟩, ?_, by decide +kernel,
    by unfold LogSys.Offers; decide +kernel, ⟨⟨0, 10⟩, by simp, by decide, by decide⟩,
    (sesInit.run (sesFirst ++ sesOther ++ sesAgain)).tr.take 3, ⟨[114], 0, [106]⟩, 2, false, by decide +kernel, by decide +kernel⟩
  refine reach_run _ (.init _) ?_
  simp only [sesFirst, sesOther, sesAgain, List.cons_append, List.nil_append, LogSys.CanRun, LogSys.Allowed, LogSys.Guard]
  and_intros <;> decide +kernel

/-- Only the first thread to receive a file notes in the log that the sender does not
resume; the others do not wait for it (ReceiverThread.cpp:393-404).  If the process dies
in between, blocks are offered later that were overwritten. -/
theorem C66_violated_race :
    ∃ s x, LogReach true false s ∧ s.m.env.dirTree = false ∧ s.Offers x ∧ Covered x.chunks 0 ∧
      (∀ e τ n, TItem.added e τ n ∈ s.tr → n = 1) ∧ ∃ a τ, s.tr = a ++ [.data τ 2 false] := by
  refine ⟨sesInit.run (sesFirst ++ sesRace ++ sesAgain), ⟨0, [97], 10, [⟨0, 10⟩]⟩, ?_, by decide +kernel,
    by unfold LogSys.Offers; decide +kernel, ⟨⟨0, 10⟩, by simp, by decide, by decide⟩, ?_,
    (sesInit.run (sesFirst ++ sesRace ++ sesAgain)).tr.take 3, ⟨[114], 0, [105]⟩, by decide +kernel⟩
  · refine reach_run _ (.init _) ?_
    simp only [sesFirst, sesRace, sesAgain, List.cons_append, List.nil_append, LogSys.CanRun, LogSys.Allowed, LogSys.Guard]
    and_intros <;> decide +kernel
  · have : (sesInit.run (sesFirst ++ sesRace ++ sesAgain)).tr = [.added (.fileCreation 2 [97] 0 10) ⟨[114], 0, [105]⟩ 1,
        .data ⟨[114], 0, [105]⟩ 1 false, .added (.blockWrite 3 0 0 10) ⟨[114], 0, [105]⟩ 1, .data ⟨[114], 0, [105]⟩ 2 false] := by
      decide +kernel
    rw [this]
    intro e τ n hm
    simp at hm
    rcases hm with ⟨_, _, h⟩ | ⟨_, _, h⟩ <;> exact h

end Wdt
