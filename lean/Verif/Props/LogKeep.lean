import Verif.Props.LogTree
/-
C69: what was recorded in a session is offered again by the next one.
-/
namespace Wdt

/-- Histories as in `LogSys`, with the entries handed to the log in the current session
since the kind of the sender was settled. -/
structure KeepSys where
  s : LogSys
  kept : List LogEntry := []

/-- One operation. -/
def KeepSys.step (K : KeepSys) (op : LogOp) : KeepSys :=
  match op with
  | .boot .. => ⟨K.s.step op, []⟩
  | .settle .. => ⟨K.s.step op, []⟩
  | .add e => ⟨K.s.step op, K.kept ++ [e]⟩
  | _ => ⟨K.s.step op, K.kept⟩

theorem KeepSys.step_s (K : KeepSys) (op : LogOp) : (K.step op).s = K.s.step op := by
  cases op <;> rfl

/-- Histories, starting with an empty directory; senders' addresses may be verified or
not. -/
inductive KeepReach : KeepSys → Prop
  | init (env : LogEnv) : KeepReach ⟨{ m := { env := env } }, []⟩
  | step {K : KeepSys} (op : LogOp) : KeepReach K → K.s.Allowed op → KeepReach (K.step op)

theorem KeepReach.logReach {K : KeepSys} (h : KeepReach K) : LogReach false false K.s := by
  induction h with
  | init env => exact .init env
  | @step K op _ ha ih =>
    rw [KeepSys.step_s]
    refine .step op ih ha ?_
    cases op <;> first | trivial | (intro hx; cases hx)

/-- While the writer thread runs, the log and what is pending are what was there up to the
header, and then all that was handed over. -/
def KeepInv (K : KeepSys) : Prop :=
  K.s.m.up = true → K.s.settled = true → K.s.m.writer = true → K.s.m.headerWritten = true ∧
    ∃ pre w, LogIs K.s.m.log (pre ++ w) [] ∧ lastHdr pre = some K.s.tag ∧ inDoubt K.s.m.env pre = false ∧ K.kept = w ++ K.s.m.pending

theorem keep_header {m : LogMgr} {peer : Bytes} {es : List LogEntry} (hl : LogIs m.log es []) (hfd : m.fd = true)
    (hp : m.pending = []) (hip : m.senderIp = peer) (hlen : m.env.recoveryId.length + peer.length ≤ 4095)
    (hcfg : I63 m.env.config) (hdt : m.env.dirTree = false) (ts : Int) (w wc : Nat) (hts : 0 ≤ ts ∧ ts ≤ int64Max)
    (hw : (m.writeLogHeader ts w wc).writer = true) :
    (m.writeLogHeader ts w wc).headerWritten = true ∧ (m.writeLogHeader ts w wc).pending = [] ∧ (m.writeLogHeader ts w wc).env = m.env ∧
    ∃ pre, LogIs (m.writeLogHeader ts w wc).log pre [] ∧ lastHdr pre = some ⟨m.env.recoveryId, m.env.config, peer⟩ ∧ inDoubt m.env pre = false := by
  obtain ⟨e1, e2⟩ := header_eq hfd hp ts w wc
  have hrange : (LogEntry.header ts WLOG_VERSION m.env.recoveryId m.senderIp m.env.config).InRange := by
    rw [hip]
    refine ⟨hts, ?_, hcfg, hlen⟩
    constructor <;> decide
  obtain ⟨w1, _⟩ := write_entry hl hrange w
  by_cases hf : fullWrite (.header ts WLOG_VERSION m.env.recoveryId m.senderIp m.env.config) w = true
  · rw [e1 hf]
    refine ⟨rfl, hp, rfl, _, w1 hf, ?_, ?_⟩
    · rw [lastHdr_append, hip]; rfl
    · rw [inDoubt_snoc]; simp [LogEntry.resets, LogEntry.confirms]
  · rw [e2 (by simpa using hf)] at hw
    simp [hdt] at hw

theorem keep_settle {K : KeepSys} (hu : K.s.m.up = true) {es0 es1 : List LogEntry} {t : Bytes} {tr0 tr1 : List TItem}
    (h : Up false false K.s es0 es1 t tr0 tr1) (bm : Bool) (ts1 ts2 : Int) (w1 w2 wc : Nat)
    (ha : K.s.Allowed (.settle bm ts1 ts2 w1 w2 wc)) : KeepInv (K.step (.settle bm ts1 ts2 w1 w2 wc)) := by
  obtain ⟨_, hc, hset, hts1, hts2⟩ := ha
  obtain ⟨f1, f2, f3⟩ := h.fresh hset
  intro hu' _ hw'
  simp only [KeepSys.step, LogSys.step] at hu' hw' ⊢
  have hwr : K.s.m.writer = true ∨ K.s.m.fd = false := by
    by_contra hx
    simp only [not_or, Bool.not_eq_true, Bool.not_eq_false] at hx
    obtain ⟨x1, x2⟩ := hx
    have hhd : ∀ m : LogMgr, m.writer = false → (m.writeLogHeader ts2 w2 wc).writer = false := by
      intro m hm
      unfold LogMgr.writeLogHeader
      split
      · simp only
        split
        · exact hm
        · refine closeLog_writer ?_ _
          exact hm
      · exact hm
    have hiv : ∀ m : LogMgr, m.writer = false → (m.invalidateDirectory ts1 w1 wc).writer = false := by
      intro m hm
      unfold LogMgr.invalidateDirectory
      split
      · simp only
        split
        · exact hm
        · exact closeLog_writer (m := { m with status := eINCONSISTENT_DIRECTORY, log := m.log ++ (recBytes (.dirInvalidation ts1)).take w1 }) hm _
      · exact hm
    have : (K.s.m.logHeader bm K.s.resuming ts1 ts2 w1 w2 wc).writer = false := by
      unfold LogMgr.logHeader
      have hs1 : (if !K.s.resuming || (K.s.m.env.dirTree && bm) then K.s.m.invalidateDirectory ts1 w1 wc else K.s.m).writer = false := by
        split
        · exact hiv _ x1
        · exact x1
      simp only
      generalize (if !K.s.resuming || (K.s.m.env.dirTree && bm) then K.s.m.invalidateDirectory ts1 w1 wc else K.s.m) = s1 at hs1
      split
      · split
        · exact hhd _ hs1
        · exact hs1
      · exact hs1
    rw [this] at hw'; cases hw'
  have hfd : K.s.m.fd = true := by
    rcases hwr with hx | hx
    · exact (h.wfd hx).1
    · have hm : K.s.m.logHeader bm K.s.resuming ts1 ts2 w1 w2 wc = K.s.m := by
        unfold LogMgr.logHeader LogMgr.invalidateDirectory LogMgr.writeLogHeader
        simp [hx, hu]
      rw [hm] at hw'
      exact (h.wfd hw').1
  have hdt : K.s.m.env.dirTree = false := by
    rcases hwr with hx | hx
    · exact (h.wfd hx).2
    · rw [hfd] at hx; cases hx
  have ht := h.torn hfd (Or.inr (Or.inl hset))
  subst ht
  obtain ⟨c1, c2, c3⟩ := h.conn hc hfd
  by_cases hb : (!K.s.resuming || (K.s.m.env.dirTree && bm)) = true
  · obtain ⟨e1, e2⟩ := invalidate_eq hfd f1 ts1 w1 wc
    obtain ⟨k1, k2⟩ := write_entry h.log (show (LogEntry.dirInvalidation ts1).InRange from hts1) w1
    by_cases hw : fullWrite (.dirInvalidation ts1) w1 = true
    · have hm : K.s.m.logHeader bm K.s.resuming ts1 ts2 w1 w2 wc =
          LogMgr.writeLogHeader ts2 w2 wc { K.s.m with status := eINCONSISTENT_DIRECTORY, log := K.s.m.log ++ (recBytes (.dirInvalidation ts1)).take w1 } := by
        unfold LogMgr.logHeader
        simp only [if_pos hb, e1 hw, hu, if_true]
        rw [if_pos (by simp [hdt])]
      rw [hm] at hu' hw' ⊢
      obtain ⟨g1, g2, g3, pre, g4, g5, g6⟩ := keep_header (m := { K.s.m with status := eINCONSISTENT_DIRECTORY, log := K.s.m.log ++ (recBytes (.dirInvalidation ts1)).take w1 })
        (k1 hw) hfd f1 c1 c3 h.cfg.1 hdt ts2 w2 wc hts2 hw'
      refine ⟨g1, pre, [], by rw [List.append_nil]; exact g4, ?_, ?_, by rw [g2]; rfl⟩
      · simp only [LogSys.tag, g3]; exact g5
      · rw [g3]; exact g6
    · obtain ⟨_, d2⟩ := e2 (by simpa using hw)
      have hm : K.s.m.logHeader bm K.s.resuming ts1 ts2 w1 w2 wc = K.s.m.invalidateDirectory ts1 w1 wc := by
        unfold LogMgr.logHeader
        simp only [if_pos hb, d2, Bool.false_eq_true, if_false]
      rw [hm, d2] at hu'; cases hu'
  · have hm : K.s.m.logHeader bm K.s.resuming ts1 ts2 w1 w2 wc = K.s.m.writeLogHeader ts2 w2 wc := by
      unfold LogMgr.logHeader
      simp only [if_neg hb, hu, if_true]
      rw [if_pos (by simp [hdt])]
    rw [hm] at hu' hw' ⊢
    obtain ⟨g1, g2, g3, pre, g4, g5, g6⟩ := keep_header h.log hfd f1 c1 c3 h.cfg.1 hdt ts2 w2 wc hts2 hw'
    refine ⟨g1, pre, [], by rw [List.append_nil]; exact g4, ?_, ?_, by rw [g2]; rfl⟩
    · simp only [LogSys.tag, g3]; exact g5
    · rw [g3]; exact g6

theorem keep_inv {K : KeepSys} (h : KeepReach K) : KeepInv K := by
  induction h with
  | init env => intro hx; cases hx
  | @step K op hr ha ih =>
    have hI := reach_inv hr.logReach
    cases op with
    | boot env opts tree ts w => intro _ hx; cases hx
    | connect ip res ts w wc =>
      obtain ⟨es0, es1, t, tr0, tr1, h1⟩ := hI.1 ha.1
      intro _ hx
      have hx' : K.s.settled = true := hx
      rw [(h1.idle ha.2.1).2.1] at hx'; cases hx'
    | settle bm ts1 ts2 w1 w2 wc =>
      obtain ⟨es0, es1, t, tr0, tr1, h1⟩ := hI.1 ha.1
      exact keep_settle ha.1 h1 bm ts1 ts2 w1 w2 wc ha
    | add e =>
      obtain ⟨es0, es1, t, tr0, tr1, h1⟩ := hI.1 ha.1
      intro hu hs hw
      simp only [KeepSys.step, LogSys.step] at hu hs hw ⊢
      have aux : ∀ b : Bool, ∀ m', m' = (if b then match e.record with | .ok _ => { K.s.m with pending := K.s.m.pending ++ [e] } | .error _ => K.s.m.abort else K.s.m) →
          m'.writer = K.s.m.writer ∧ m'.log = K.s.m.log ∧ m'.env = K.s.m.env ∧ m'.headerWritten = K.s.m.headerWritten ∧
          (b = true → m'.up = true → m'.pending = K.s.m.pending ++ [e]) := by
        intro b m' hm'
        subst hm'
        cases b with
        | false => exact ⟨rfl, rfl, rfl, rfl, fun hx => by cases hx⟩
        | true =>
          cases e.record with
          | ok b => exact ⟨rfl, rfl, rfl, rfl, fun _ _ => rfl⟩
          | error f => exact ⟨rfl, rfl, rfl, rfl, fun _ hx => by cases hx⟩
      have key := aux _ (K.s.m.add e) rfl
      obtain ⟨a1, a2, a3, a4, a5⟩ := key
      rw [a1] at hw
      obtain ⟨k1, pre, w, k2, k3, k4, k5⟩ := ih ha.1 hs hw
      have hfd := (h1.wfd hw).1
      have hp := a5 (by cases e <;> simp [hfd, k1]) hu
      refine ⟨a4.trans k1, pre, w, by rw [a2]; exact k2, ?_, ?_, ?_⟩
      · simp only [LogSys.tag, a3]; exact k3
      · rw [a3]; exact k4
      · rw [hp, k5, List.append_assoc]
    | data =>
      intro hu hs hw
      exact ih hu hs hw
    | flush w =>
      obtain ⟨es0, es1, t, tr0, tr1, h1⟩ := hI.1 ha.1
      intro hu hs hw
      simp only [KeepSys.step, LogSys.step] at hu hs hw ⊢
      by_cases hwr : K.s.m.writer = true
      · have hm : K.s.m.flush w = { K.s.m with log := K.s.m.log ++ (pendingBytes K.s.m.pending).take w, pending := [], writer := decide ((pendingBytes K.s.m.pending).length ≤ w) } := by
          unfold LogMgr.flush; rw [if_pos hwr]
        rw [hm] at hw ⊢
        obtain ⟨k1, pre, l, k2, k3, k4, k5⟩ := ih ha.1 hs hwr
        obtain ⟨m, t', w1, w2, _⟩ := write_entries k2 (fun e he => (h1.pend e he).1) w
        obtain ⟨rfl, w4⟩ := w2 (by simpa using hw)
        refine ⟨k1, pre, l ++ K.s.m.pending, ?_, k3, k4, by rw [List.append_nil]; exact k5⟩
        rw [w4] at w1
        rw [← List.append_assoc]; exact w1
      · have hm : K.s.m.flush w = K.s.m := by unfold LogMgr.flush; rw [if_neg hwr]
        rw [hm] at hw
        exact absurd hw hwr
    | finish ok disk tr ap now wh w1 w2 w3 wc =>
      intro hx
      have := finish_down K.s.m ok disk tr ap now wh w1 w2 w3 wc
      simp only [KeepSys.step, LogSys.step] at hx
      rw [this] at hx; cases hx
    | kill => intro hx; cases hx

theorem kept_plain {K : KeepSys} (h : KeepReach K) : ∀ e ∈ K.kept, e.plain = true := by
  induction h with
  | init env => intro e he; cases he
  | @step K op _ ha ih =>
    cases op with
    | boot env opts tree ts w => intro e he; cases he
    | settle bm ts1 ts2 w1 w2 wc => intro e he; cases he
    | add e' =>
      intro e he
      rcases List.mem_append.1 he with he | he
      · exact ih e he
      · rw [List.mem_singleton] at he
        subst he
        obtain ⟨_, _, ha⟩ := ha
        cases e <;> first | rfl | exact absurd ha (by simp)
    | _ => exact ih

/-- In a session in which the log is being written, every block handed to the log and
written out is offered again, if the process dies then, to the same sender of the same
transfer by the next process, provided that one accepts the log and finds the file on
disk.  Missing: sessions that began with a log of another transfer, in which nothing is
ever written out, see `C69_violated_inconsistent`; logs that are found invalid, see C54;
blocks handed over before the header was written. -/
theorem C69_recorded_offered_partial {K : KeepSys} (h : KeepReach K) (hu : K.s.m.up = true) (hs : K.s.settled = true)
    (hw : K.s.m.writer = true) (hp : K.s.m.pending = [])
    (env : LogEnv) (henv : env.recoveryId = K.s.m.env.recoveryId ∧ env.config = K.s.m.env.config) (hdt : env.dirTree = false)
    (opts : LogOpts) (tree : List FileChunksInfo) (ts : Int) (wb : Nat) (res : Bool) (ts' : Int) (w wc : Nat) (S : KeepSys)
    (hS : S = ((K.step .kill).step (.boot env opts tree ts wb)).step (.connect K.s.peer res ts' w wc))
    (ha : (K.step .kill).s.Allowed (.boot env opts tree ts wb)) (hup : S.s.m.up = true) (hok : S.s.usable = true)
    (a b : List LogEntry) (tc : Int) (n : Bytes) (i size d : Int) (hkept : K.kept = a ++ .fileCreation tc n i size :: b)
    (hlive : ∀ e ∈ b, e.endsFile env i = false) (hd : env.disk n = some d) (hsz : env.prealloc = true → size ≤ d) :
    ∃ x, S.s.Offers x ∧ x.fileName = n ∧ x.seqId = i ∧ x.fileSize = d ∧
      ∀ tb o z p, .blockWrite tb i o z ∈ b → o ≤ p → p < o + z → Covered x.chunks p := by
  obtain ⟨k1, pre, l, k2, k3, k4, k5⟩ := keep_inv h hu hs hw
  obtain ⟨es0, es1, t, tr0, tr1, h1⟩ := (reach_inv h.logReach).1 hu
  have hfd := (h1.wfd hw).1
  have hcon : K.s.connected = true := by
    by_contra hc
    have := (h1.idle (by simpa using hc)).2.1
    rw [hs] at this; cases this
  obtain ⟨c1, c2, c3⟩ := h1.conn hcon hfd
  rw [hp, List.append_nil] at k5
  subst k5
  obtain ⟨_, hpo, hnow, hts, hcfg⟩ := ha
  have hplain := kept_plain h
  have hnd : ∀ l : List LogEntry, (∀ e ∈ l, e.plain = true) → inDoubt env (pre ++ l) = false := by
    intro l hl
    rw [inDoubt_plain env pre l hl, inDoubt_env env K.s.m.env henv.1 henv.2]
    exact k4
  have hboot : (K.step .kill).s.m.log = K.s.m.log := rfl
  have hm : S.s.m = LogMgr.connect K.s.peer ts' w wc ((K.step .kill).s.m.boot env opts tree ts wb) := by rw [hS]; rfl
  have hus : S.s.usable = decide (((K.step .kill).s.m.boot env opts tree ts wb).status ≠ eINVALID_LOG) := by rw [hS]; rfl
  have hdown : ∀ m : LogMgr, m.up = false → m.fd = false → (m.connect K.s.peer ts' w wc).up = false := by
    intro m x1 x2
    have aux : ∀ s0 : LogMgr, s0.up = false → s0.fd = false →
        (if s0.fd then (if !s0.opts.verifyOff && s0.senderIp ≠ [] && s0.senderIp ≠ K.s.peer then
          (if (s0.invalidateDirectory ts' w wc).up then { s0.invalidateDirectory ts' w wc with senderIp := K.s.peer, claims := [] } else s0.invalidateDirectory ts' w wc)
          else { s0 with senderIp := K.s.peer }) else { s0 with claims := [] }).up = false := by
      intro s0 y1 y2
      rw [if_neg (by rw [y2]; decide)]; exact y1
    unfold LogMgr.connect
    exact aux _ (by split <;> exact x1) (by split <;> exact x2)
  have hpre : ¬ (env.dirTree && env.prealloc) = true := by rw [hdt]; simp
  cases hparse : parseLog env [] K.s.m.log with
  | error f =>
    have hb : (K.step .kill).s.m.boot env opts tree ts wb = { log := K.s.m.log, env := env, opts := opts, aborted := true } := by
      unfold LogMgr.boot; rw [if_neg hpre, hboot, hparse]
    rw [hm, hb, hdown _ rfl rfl] at hup; cases hup
  | ok out =>
    by_cases hi : out.status = eINVALID_LOG
    · have hb : (K.step .kill).s.m.boot env opts tree ts wb = { log := out.log, up := true, fd := false, env := env, opts := opts, status := out.status, senderIp := out.senderIp, claims := out.infos } := by
        unfold LogMgr.boot; rw [if_neg hpre, hboot, hparse]; simp only [if_pos hi]
      rw [hus, hb] at hok
      simp only [hi] at hok
      exact absurd hok (by decide)
    · obtain ⟨⟨lost, hl'⟩, hst, hip, hsay, hno⟩ := parse_known hpo hnow k2 hparse hi
      rw [if_neg (by rw [hnd _ hplain]; decide)] at hst
      have hne : out.status ≠ eINCONSISTENT_DIRECTORY := by rw [hst]; decide
      have hb : (K.step .kill).s.m.boot env opts tree ts wb = { log := out.log, up := true, fd := true, env := env, opts := opts, status := out.status, senderIp := out.senderIp, claims := out.infos } := by
        unfold LogMgr.boot; rw [if_neg hpre, hboot, hparse]
        simp only [if_neg hi, if_neg hne, hdt, Bool.false_eq_true, and_false, if_false]
      have hsip : out.senderIp = K.s.peer := by
        rw [hip, lastHdr_plain _ _ hplain, k3]; rfl
      have hclaims : S.s.m.claims = out.infos := by
        rw [hm, hb, hsip]
        have aux : ∀ s0 : LogMgr, s0.senderIp = K.s.peer → s0.fd = true →
            (if s0.fd then (if !s0.opts.verifyOff && s0.senderIp ≠ [] && s0.senderIp ≠ K.s.peer then
              (if (s0.invalidateDirectory ts' w wc).up then { s0.invalidateDirectory ts' w wc with senderIp := K.s.peer, claims := [] } else s0.invalidateDirectory ts' w wc)
              else { s0 with senderIp := K.s.peer }) else { s0 with claims := [] }).claims = s0.claims := by
          intro s0 y1 y2
          rw [if_pos y2, if_neg (by simp [y1])]
        unfold LogMgr.connect
        rw [aux _ (by split <;> rfl) (by split <;> rfl)]
        split <;> rfl
      have hsays := hsay hst
      have hliv : Live env (pre ++ K.kept) i n size (b.flatMap (LogEntry.range i)) :=
        ⟨pre ++ a, tc, b, by rw [hkept, List.append_assoc],
          hnd a (fun e he => hplain e (by rw [hkept]; exact List.mem_append_left _ he)), hlive, rfl⟩
      obtain ⟨x, x1, x2, x3, x4⟩ := hsays.complete i n size _ d hliv hd hsz
      obtain ⟨size', ranges', y1, _, _, _, y5, _⟩ := hsays.sound x x1
      rw [x2, x3] at y1
      obtain ⟨_, _, hr⟩ := live_unique env _ i n n size size' _ _ hliv y1
      refine ⟨x, ⟨hup, by rw [hS]; rfl, by rw [hS]; rfl, by rw [hclaims]; exact x1⟩, x3, x2, x4, ?_⟩
      intro tb o z p hbm hp1 hp2
      rw [y5, ← hr]
      refine ⟨⟨o, o + z⟩, List.mem_flatMap.2 ⟨_, hbm, ?_⟩, hp1, hp2⟩
      simp [LogEntry.range]

def KeepSys.run (K : KeepSys) (ops : List LogOp) : KeepSys := ops.foldl KeepSys.step K

theorem keep_run (ops : List LogOp) : ∀ {K : KeepSys}, KeepReach K → LogSys.CanRun false false K.s ops → KeepReach (K.run ops) := by
  induction ops with
  | nil => intro K h _; exact h
  | cons op ops ih =>
    intro K h hr
    refine ih (.step op h hr.1) ?_
    rw [KeepSys.step_s]
    exact hr.2.2

/-- A sender at "i" writes file "a" of 10 bytes, its blocks are in the log. -/
def keepFirst : List LogOp :=
  [.boot (sesEnv 0) {} [] 1 100, .connect [105] false 1 100 100, .settle false 1 1 100 100 100,
   .add (.fileCreation 2 [97] 0 10), .data, .add (.blockWrite 3 0 0 10), .flush 100]

/-- The process dies; the sender connects again, resuming. -/
def sesTail : List LogOp := [.kill, .boot (sesEnv 10) {} [] 4 100, .connect [105] true 4 100 100]

/-- The hypotheses of C69 can be met. -/
example : KeepReach (KeepSys.run ⟨sesInit, []⟩ keepFirst) ∧ (KeepSys.run ⟨sesInit, []⟩ keepFirst).s.m.up = true ∧
    (KeepSys.run ⟨sesInit, []⟩ keepFirst).s.settled = true ∧ (KeepSys.run ⟨sesInit, []⟩ keepFirst).s.m.writer = true ∧
    (KeepSys.run ⟨sesInit, []⟩ keepFirst).s.m.pending = [] ∧
    (KeepSys.run ⟨sesInit, []⟩ keepFirst).kept = [.fileCreation 2 [97] 0 10, .blockWrite 3 0 0 10] ∧
    ((KeepSys.run ⟨sesInit, []⟩ keepFirst).step .kill).s.Allowed (.boot (sesEnv 10) {} [] 4 100) ∧
    ((KeepSys.run ⟨sesInit, []⟩ keepFirst).run sesTail).s.m.up = true ∧ ((KeepSys.run ⟨sesInit, []⟩ keepFirst).run sesTail).s.usable = true := by
  refine ⟨?_, by decide +kernel, by decide +kernel, by decide +kernel, by decide +kernel, by decide +kernel,
    ?_, by decide +kernel, by decide +kernel⟩
  · refine keep_run _ (.init _) ?_
    simp only [keepFirst, LogSys.CanRun, LogSys.Allowed, LogSys.Guard]
    and_intros <;> decide +kernel
  · unfold LogSys.Allowed LogSys.Allowed.I63'
    decide +kernel

/-- The receiver of `sesEnv` asked for another transfer, with recovery id "s". -/
def sesEnv' (d : Int) : LogEnv := { sesEnv d with recoveryId := [115] }

/-- The directory holds the log of another transfer; then a sender at "i" writes file "a"
of 10 bytes, the log is written out as far as it ever is. -/
def keepStale : List LogOp :=
  sesFirst ++ [.boot (sesEnv' 10) {} [] 4 100, .connect [105] false 4 100 100, .settle false 4 4 100 100 100,
   .add (.fileCreation 5 [97] 0 10), .data, .add (.blockWrite 6 0 0 10), .flush 100]

/-- If the directory holds a log of another transfer, the thread that writes the log out is
not started (TransferLogManager.cpp:289-300 returns unless the status is OK): the header is
written, but nothing that is handed to the log in this session.  The next session offers
nothing, though the log is accepted and the file is whole on disk. -/
theorem C69_violated_inconsistent :
    ∃ K : KeepSys, KeepReach K ∧ K.s.m.up = true ∧ K.s.settled = true ∧ K.s.m.headerWritten = true ∧
      K.kept = [.fileCreation 5 [97] 0 10, .blockWrite 6 0 0 10] ∧ (∀ w, (K.step (.flush w)).s.m.log = K.s.m.log) ∧
      ∀ S : KeepSys, S = ((K.step .kill).step (.boot (sesEnv' 10) {} [] 7 100)).step (.connect K.s.peer true 7 100 100) →
        (K.step .kill).s.Allowed (.boot (sesEnv' 10) {} [] 7 100) ∧ S.s.m.up = true ∧ S.s.usable = true ∧ S.s.m.claims = [] ∧
        (sesEnv' 10).recoveryId = K.s.m.env.recoveryId ∧ (sesEnv' 10).disk [97] = some 10 := by
  refine ⟨KeepSys.run ⟨sesInit, []⟩ keepStale, ?_, by decide +kernel, by decide +kernel, by decide +kernel, by decide +kernel, ?_, ?_⟩
  · refine keep_run _ (.init _) ?_
    simp only [keepStale, sesFirst, List.cons_append, List.nil_append, LogSys.CanRun, LogSys.Allowed, LogSys.Guard]
    and_intros <;> decide +kernel
  · intro w
    have hwr : (KeepSys.run ⟨sesInit, []⟩ keepStale).s.m.writer = false := by decide +kernel
    simp [KeepSys.step, LogSys.step, LogMgr.flush, hwr]
  · intro S hS
    subst hS
    refine ⟨?_, by decide +kernel, by decide +kernel, by decide +kernel, by decide +kernel, by decide +kernel⟩
    unfold LogSys.Allowed LogSys.Allowed.I63'
    decide +kernel

end Wdt
