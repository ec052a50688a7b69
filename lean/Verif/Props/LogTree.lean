import Verif.Lemmas.LogTree
import Verif.Props.LogSession
/-
C67, C68: size based resumption over several receiver processes, and the end of a
transfer.  With size based resumption the receiver offers every file it finds, as far as
it goes; this is right only if all data came from senders that wrote whole files of this
very transfer in order.
-/
namespace Wdt

/-- When files are offered by size, all data written since the last transfer that
succeeded was written for this transfer, under this configuration (in particular, without
preallocation), by this sender, which was resuming and did not send files in blocks --
provided data is only written while the log is open, and only after the receiver noted in
the log whether the sender resumes.  Without the log it is false, see
`C67_violated_short_header`. -/
theorem C67_offered_by_size_partial {T : TreeSys} (h : TreeReach true T) (hd : T.s.m.env.dirTree = true)
    {x : FileChunksInfo} (ho : T.s.Offers x) :
    ∀ d ∈ T.dirty, d.τ = ⟨T.s.m.env.recoveryId, T.s.m.env.config, T.s.peer⟩ ∧ d.resuming = true ∧ d.block = false := by
  obtain ⟨hu, hc, hs, hx⟩ := ho
  obtain ⟨es, t, _, hf⟩ := (tree_inv h).1 hu
  obtain ⟨k1, k2⟩ := hf.clm hd (List.ne_nil_of_mem hx) hs
  have hfd := k2 hc
  have hst := k1 hfd
  intro d hm
  have hcfg := hf.cfg
  rw [hd] at hcfg
  obtain ⟨p1, p2, p3, p4, p5⟩ := hf.pd d hm T.s.m.env hcfg (hf.sure hfd hst (Or.inl hs))
  obtain ⟨τ', q1, q2⟩ := p5 rfl
  have := hf.ip hfd rfl hc hst (Or.inl hs) τ' q1
  refine ⟨?_, p3, p4⟩
  cases hτ : d.τ
  rw [hτ] at p1 p2 q2
  simp only at p1 p2 q2
  rw [p1, p2, ← q2, this]

/-- The same without verification of the sender's address: then the address may differ. -/
theorem C67_unverified_partial {T : TreeSys} (h : TreeReach false T) (hd : T.s.m.env.dirTree = true)
    {x : FileChunksInfo} (ho : T.s.Offers x) :
    ∀ d ∈ T.dirty, d.τ.rid = T.s.m.env.recoveryId ∧ d.τ.cfg = T.s.m.env.config ∧ d.resuming = true ∧ d.block = false := by
  obtain ⟨hu, hc, hs, hx⟩ := ho
  obtain ⟨es, t, _, hf⟩ := (tree_inv h).1 hu
  obtain ⟨k1, k2⟩ := hf.clm hd (List.ne_nil_of_mem hx) hs
  have hfd := k2 hc
  have hcfg := hf.cfg
  rw [hd] at hcfg
  intro d hm
  obtain ⟨p1, p2, p3, p4, _⟩ := hf.pd d hm T.s.m.env hcfg (hf.sure hfd (k1 hfd) (Or.inl hs))
  exact ⟨p1, p2, p3, p4⟩

theorem closeLog_keeps (m : LogMgr) (w : Nat) : (m.closeLog w).aborted = m.aborted ∧ (m.closeLog w).up = m.up ∧
    (m.closeLog w).env = m.env ∧ (m.closeLog w).opts = m.opts := by
  unfold LogMgr.closeLog LogMgr.flush
  cases m.fd <;> cases m.env.dirTree <;> cases m.writer <;> exact ⟨rfl, rfl, rfl, rfl⟩

theorem closeLog_aborted (m : LogMgr) (w : Nat) : (m.closeLog w).aborted = m.aborted := (closeLog_keeps m w).1

theorem writeLogHeader_aborted (m : LogMgr) (ts : Int) (w wc : Nat) :
    (m.writeLogHeader ts w wc).aborted = m.aborted ∧ (m.writeLogHeader ts w wc).up = m.up ∧
      (m.writeLogHeader ts w wc).env = m.env ∧ (m.writeLogHeader ts w wc).opts = m.opts := by
  unfold LogMgr.writeLogHeader
  split
  · simp only
    split
    · exact ⟨rfl, rfl, rfl, rfl⟩
    · exact closeLog_keeps _ _
  · exact ⟨rfl, rfl, rfl, rfl⟩

/-- The end of a transfer does not crash the receiver: not when the transfer failed, not
with size based resumption, and not when the kind of the sender was noted in the log,
which is still open.  The log is not compacted.  Otherwise it is false, see
`C68_violated_no_files` and `C68_violated_short_header`. -/
theorem C68_finish_no_crash_partial {v : Bool} {T : TreeSys} (h : TreeReach v T) (hu : T.s.m.up = true) (ok : Bool)
    (disk : Bytes → Option Int) (tr ap : Bool) (now : Int) (wh w1 w2 w3 wc : Nat)
    (hk : ok = false ∨ T.s.m.env.dirTree = true ∨ (T.s.settled = true ∧ T.s.m.fd = true))
    (hn : ok = false ∨ T.s.m.opts.compact = false) :
    (T.step (.finish ok disk tr ap now wh w1 w2 w3 wc)).s.m.aborted = T.s.m.aborted := by
  rw [TreeSys.step_s]
  obtain ⟨es, t, _, hf⟩ := (tree_inv h).1 hu
  have hc : ¬ (ok && decide (T.s.m.status = eINCONSISTENT_DIRECTORY) && !T.s.m.env.dirTree) = true := by
    intro hx
    simp only [Bool.and_eq_true, decide_eq_true_eq, Bool.not_eq_true'] at hx
    obtain ⟨⟨h1, h2⟩, h3⟩ := hx
    rcases hk with hk | hk | ⟨hk, hk'⟩
    · rw [h1] at hk; cases hk
    · rw [h3] at hk; cases hk
    · exact absurd (h2.symm.trans (hf.ok hk' hk h3)) (by decide)
  have hs1 : ∃ s1 : LogMgr, (if ok && decide (T.s.m.status = eINCONSISTENT_DIRECTORY) then T.s.m.writeLogHeader now wh 0 else T.s.m) = s1 ∧
      s1.aborted = T.s.m.aborted ∧ s1.up = true ∧ s1.opts = T.s.m.opts := by
    split
    · obtain ⟨a1, a2, _, a4⟩ := writeLogHeader_aborted T.s.m now wh 0
      exact ⟨_, rfl, a1, a2.trans hu, a4⟩
    · exact ⟨_, rfl, rfl, hu, rfl⟩
  obtain ⟨s1, hs1, a1, a2, a3⟩ := hs1
  have hcomp : ¬ (s1.opts.compact && ok && !decide (T.s.m.status = eINVALID_LOG) && s1.opts.keepLog && !s1.env.dirTree) = true := by
    rw [a3]
    rcases hn with hn | hn <;> simp [hn]
  simp only [LogSys.step, LogMgr.finish]
  rw [if_neg hc, hs1, if_neg hcomp, if_pos a2]
  split <;> exact (closeLog_aborted _ _).trans a1

/-- A process that runs has not crashed, so `C68_finish_no_crash_partial` says it does not
crash at the end either. -/
theorem running_not_aborted {v g : Bool} {s : LogSys} (h : LogReach v g s) : s.m.up = true → s.m.aborted = false := by
  have hinv : ∀ (m : LogMgr) ts w wc, (m.up = true → m.aborted = false) →
      (m.invalidateDirectory ts w wc).up = true → (m.invalidateDirectory ts w wc).aborted = false := by
    intro m ts w wc hm
    unfold LogMgr.invalidateDirectory
    split
    · simp only
      split
      · exact hm
      · intro hx; cases hx
    · exact hm
  have hhdr : ∀ (m : LogMgr) ts w wc, (m.up = true → m.aborted = false) →
      (m.writeLogHeader ts w wc).up = true → (m.writeLogHeader ts w wc).aborted = false := by
    intro m ts w wc hm
    obtain ⟨a1, a2, _, _⟩ := writeLogHeader_aborted m ts w wc
    rw [a1, a2]; exact hm
  induction h with
  | init env => intro hx; cases hx
  | @step s op _ ha hg ih =>
    cases op with
    | boot env opts tree ts w =>
      simp only [LogSys.step]
      unfold LogMgr.boot
      split
      · intro hx; cases hx
      · split
        · intro hx; cases hx
        · simp only
          split
          · intro _; rfl
          · split
            · exact hinv _ _ _ _ (fun _ => rfl)
            · split
              · split
                · intro _; rfl
                · intro hx; cases hx
              · intro _; rfl
    | connect ip res ts w wc =>
      simp only [LogSys.step]
      have aux : ∀ s0 : LogMgr, (s0.up = true → s0.aborted = false) →
          (if s0.fd then (if !s0.opts.verifyOff && s0.senderIp ≠ [] && s0.senderIp ≠ ip then
            (if (s0.invalidateDirectory ts w wc).up then { s0.invalidateDirectory ts w wc with senderIp := ip, claims := [] } else s0.invalidateDirectory ts w wc)
            else { s0 with senderIp := ip }) else { s0 with claims := [] }).up = true →
          (if s0.fd then (if !s0.opts.verifyOff && s0.senderIp ≠ [] && s0.senderIp ≠ ip then
            (if (s0.invalidateDirectory ts w wc).up then { s0.invalidateDirectory ts w wc with senderIp := ip, claims := [] } else s0.invalidateDirectory ts w wc)
            else { s0 with senderIp := ip }) else { s0 with claims := [] }).aborted = false := by
        intro s0 h0
        split
        · split
          · split
            · exact hinv s0 ts w wc h0
            · exact hinv s0 ts w wc h0
          · exact h0
        · exact h0
      exact aux _ (by split <;> exact ih)
    | settle bm ts1 ts2 w1 w2 wc =>
      simp only [LogSys.step]
      have aux : ∀ s1 : LogMgr, (s1.up = true → s1.aborted = false) →
          (if s1.up then (if !s1.env.dirTree || s1.status ≠ eINCONSISTENT_DIRECTORY then s1.writeLogHeader ts2 w2 wc else s1) else s1).up = true →
          (if s1.up then (if !s1.env.dirTree || s1.status ≠ eINCONSISTENT_DIRECTORY then s1.writeLogHeader ts2 w2 wc else s1) else s1).aborted = false := by
        intro s1 h1
        split
        · split
          · exact hhdr _ _ _ _ h1
          · exact h1
        · exact h1
      refine aux _ ?_
      split
      · exact hinv _ _ _ _ ih
      · exact ih
    | add e =>
      simp only [LogSys.step]
      have aux : ∀ b : Bool, ∀ m', m' = (if b then match e.record with | .ok _ => { s.m with pending := s.m.pending ++ [e] } | .error _ => s.m.abort else s.m) →
          m'.up = true → m'.aborted = false := by
        intro b m' hm'
        subst hm'
        cases b with
        | false => exact ih
        | true =>
          cases e.record with
          | ok b => exact ih
          | error f => intro hx; cases hx
      exact aux _ _ rfl
    | data => exact ih
    | flush w =>
      simp only [LogSys.step]
      unfold LogMgr.flush
      split <;> exact ih
    | finish ok disk tr ap now wh w1 w2 w3 wc =>
      intro hx
      have := finish_down s.m ok disk tr ap now wh w1 w2 w3 wc
      simp only [LogSys.step] at hx
      rw [this] at hx; cases hx
    | kill => intro hx; cases hx

/-! ### Concrete histories -/

/-- Several operations. -/
def TreeSys.run (T : TreeSys) (ops : List LogOp) : TreeSys := ops.foldl TreeSys.step T

/-- The operations can happen one after the other. -/
def TreeSys.CanRun (v : Bool) : TreeSys → List LogOp → Prop
  | _, [] => True
  | T, op :: ops => T.s.Allowed op ∧ T.Guard v op ∧ TreeSys.CanRun v (T.step op) ops

theorem tree_run {v : Bool} (ops : List LogOp) : ∀ {T : TreeSys}, TreeReach v T → TreeSys.CanRun v T ops → TreeReach v (T.run ops) := by
  induction ops with
  | nil => intro T h _; exact h
  | cons op ops ih => intro T h hr; exact ih (.step op h hr.1 hr.2.1) hr.2.2

/-- Receiver with size based resumption and recovery id `r`. -/
def treeEnv (r : Bytes) : LogEnv where
  recoveryId := r
  config := 2
  prealloc := false
  dirTree := true
  disk n := if n = [97] then some 5 else none

/-- Receiver with log based resumption that preallocates. -/
def preEnv : LogEnv where
  recoveryId := [114]
  config := 1
  prealloc := true
  disk n := if n = [97] then some 10 else none

/-- No process yet, no log. -/
def treeInit : TreeSys := { s := { m := { env := treeEnv [114] } } }

/-- What the receiver finds on disk: 5 bytes of file "a". -/
def treeFound : List FileChunksInfo := [⟨0, [97], 5, [⟨0, 5⟩]⟩]

/-- A resuming sender at "i" writes some of file "a"; the process dies; it connects again. -/
def treeTwice : List LogOp :=
  [.boot (treeEnv [114]) {} [] 1 100, .connect [105] true 1 100 100, .settle false 1 1 100 100 100, .data, .kill,
   .boot (treeEnv [114]) {} treeFound 2 100, .connect [105] true 2 100 100]

theorem treeTwice_reach : TreeReach true (treeInit.run treeTwice) := by
  refine tree_run _ (.init _) ?_
  simp only [treeTwice, TreeSys.CanRun, LogSys.Allowed, TreeSys.Guard]
  and_intros <;> decide +kernel

/-- The hypotheses of C67 can be met: the file is offered, and data was written before. -/
example : TreeReach true (treeInit.run treeTwice) ∧ (treeInit.run treeTwice).s.m.env.dirTree = true ∧
    (treeInit.run treeTwice).s.Offers ⟨0, [97], 5, [⟨0, 5⟩]⟩ ∧
    (treeInit.run treeTwice).dirty = [⟨⟨[114], 2, [105]⟩, true, false⟩] :=
  ⟨treeTwice_reach, by decide +kernel, by unfold LogSys.Offers; decide +kernel, by decide +kernel⟩

/-- Had the first sender used blocks, or not been resuming, nothing would be offered. -/
example : (treeInit.run ([.boot (treeEnv [114]) {} [] 1 100, .connect [105] true 1 100 100, .settle true 1 1 100 100 100, .data, .kill,
    .boot (treeEnv [114]) {} treeFound 2 100])).s.m.claims = [] := by decide +kernel

/-- A receiver that preallocates cannot write the header of its log (the disk is full, say),
closes the log and goes on receiving blocks; it dies.  The log is empty then.  A receiver
with size based resumption takes it for the log of a new directory and offers the
preallocated file as complete. -/
theorem C67_violated_short_header :
    ∃ ops x, LogReach true false (sesInit.run ops) ∧ (∀ op ∈ ops, ∀ ok disk tr ap now wh w1 w2 w3 wc, op ≠ .finish ok disk tr ap now wh w1 w2 w3 wc) ∧
      (sesInit.run ops).m.env.dirTree = true ∧ (sesInit.run ops).Offers x ∧ Covered x.chunks 0 ∧
      ∃ τ n, .data τ n true ∈ (sesInit.run ops).tr ∧ τ.cfg = transferConfig true false := by
  refine ⟨[.boot preEnv {} [] 1 100, .connect [105] true 1 100 100, .settle true 1 1 100 0 0, .data, .kill,
    .boot (treeEnv [114]) {} [⟨0, [97], 10, [⟨0, 10⟩]⟩] 2 100, .connect [105] true 2 100 100],
    ⟨0, [97], 10, [⟨0, 10⟩]⟩, ?_, ?_, by decide +kernel, by unfold LogSys.Offers; decide +kernel,
    ⟨⟨0, 10⟩, by simp, by decide, by decide⟩, ⟨[114], 1, [105]⟩, 1, by decide +kernel, by decide +kernel⟩
  · refine reach_run _ (.init _) ?_
    simp only [LogSys.CanRun, LogSys.Allowed, LogSys.Guard]
    and_intros <;> decide +kernel
  · intro op hop ok disk tr ap now wh w1 w2 w3 wc hx
    subst hx
    simp at hop

/-- A directory with the log of a finished transfer is used for another transfer, by a
sender that is not resuming and has no files.  The transfer succeeds, and the receiver
dies in a failed check (Receiver.cpp:525). -/
theorem C68_violated_no_files :
    ∃ s, LogReach true true s ∧ s.m.up = true ∧ s.connected = true ∧ s.m.fd = true ∧ s.m.opts.compact = false ∧
      (s.step (.finish true (fun _ => none) true true 9 100 100 100 100 100)).m.aborted = true := by
  refine ⟨sesInit.run (sesFirst ++ [.boot { sesEnv 10 with recoveryId := [115] } {} [] 4 100, .connect [105] false 4 100 100]), ?_,
    by decide +kernel, by decide +kernel, by decide +kernel, by decide +kernel, by decide +kernel⟩
  refine reach_run _ (.init _) ?_
  simp only [sesFirst, List.cons_append, List.nil_append, LogSys.CanRun, LogSys.Allowed, LogSys.Guard]
  and_intros <;> decide +kernel

/-- A sender that is not resuming writes a file, but the header of the log could not be
written.  The transfer succeeds, and the receiver dies in the same check. -/
theorem C68_violated_short_header :
    ∃ s, LogReach true true s ∧ s.m.up = true ∧ s.settled = true ∧ s.m.opts.compact = false ∧ TItem.data s.tag s.n false ∈ s.tr ∧
      (s.step (.finish true (fun _ => none) true true 9 100 100 100 100 100)).m.aborted = true := by
  refine ⟨sesInit.run [.boot (sesEnv 0) {} [] 1 100, .connect [105] false 1 100 100, .settle false 1 1 100 0 0, .data], ?_,
    by decide +kernel, by decide +kernel, by decide +kernel, by decide +kernel, by decide +kernel⟩
  refine reach_run _ (.init _) ?_
  simp only [LogSys.CanRun, LogSys.Allowed, LogSys.Guard]
  and_intros <;> decide +kernel

/-- The hypotheses of C68 can be met: a transfer in which data was written. -/
example : TreeReach true (treeInit.run (treeTwice ++ [.settle false 2 2 100 100 100, .data])) ∧
    (treeInit.run (treeTwice ++ [.settle false 2 2 100 100 100, .data])).s.m.up = true ∧
    (treeInit.run (treeTwice ++ [.settle false 2 2 100 100 100, .data])).s.m.opts.compact = false := by
  refine ⟨?_, by decide +kernel, by decide +kernel⟩
  refine tree_run _ (.init _) ?_
  simp only [treeTwice, List.cons_append, List.nil_append, TreeSys.CanRun, LogSys.Allowed, TreeSys.Guard]
  and_intros <;> decide +kernel

end Wdt
