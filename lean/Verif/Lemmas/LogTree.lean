import Verif.Lemmas.LogFinish
/-
Size based resumption over several receiver processes: data that may be incomplete, and
the state of the log.
-/
namespace Wdt

/-- Data written to disk: in which kind of session, and whether its sender was resuming and
sent files in blocks. -/
structure Dirty where
  τ : Tag
  resuming : Bool
  block : Bool
deriving DecidableEq, Repr

/-- Histories as in `LogSys`, with the data written since the last transfer that succeeded. -/
structure TreeSys where
  s : LogSys
  block : Bool := false
  dirty : List Dirty := []

/-- One operation. -/
def TreeSys.step (T : TreeSys) (op : LogOp) : TreeSys :=
  match op with
  | .settle bm .. => { T with s := T.s.step op, block := bm }
  | .data => { T with s := T.s.step op, dirty := T.dirty ++ [⟨T.s.tag, T.s.resuming, T.block⟩] }
  | .finish true .. => { T with s := T.s.step op, dirty := [] }
  | _ => { T with s := T.s.step op }

theorem TreeSys.step_s (T : TreeSys) (op : LogOp) : (T.step op).s = T.s.step op := by
  cases op with
  | finish ok => cases ok <;> rfl
  | _ => rfl

/-- With `v`, the address of the sender is verified by every process.  Data is written only
after the kind of the sender was settled, while the log is open. -/
def TreeSys.Guard (v : Bool) (T : TreeSys) : LogOp → Prop
  | .boot _ opts _ _ _ => v = true → opts.verifyOff = false
  | .data => T.s.settled = true ∧ T.s.m.fd = true
  | _ => True

/-- Histories, starting with an empty directory. -/
inductive TreeReach (v : Bool) : TreeSys → Prop
  | init (env : LogEnv) : TreeReach v { s := { m := { env := env } } }
  | step {T : TreeSys} (op : LogOp) : TreeReach v T → T.s.Allowed op → T.Guard v op → TreeReach v (T.step op)

theorem TreeReach.logReach {v : Bool} {T : TreeSys} (h : TreeReach v T) : LogReach v false T.s := by
  induction h with
  | init env => exact .init env
  | @step T op _ ha hg ih =>
    rw [TreeSys.step_s]
    refine .step op ih ha ?_
    cases op with
    | boot env opts tree ts w => exact hg
    | data => intro hx; cases hx
    | _ => trivial

/-- If a size based session would accept the log with these entries, the data is of the
same transfer and sender, and came from a resuming sender that sent whole files. -/
def Pd (v : Bool) (es : List LogEntry) (d : Dirty) : Prop :=
  ∀ env : LogEnv, env.config = transferConfig env.prealloc true → inDoubt env es = false →
    d.τ.rid = env.recoveryId ∧ d.τ.cfg = env.config ∧ d.resuming = true ∧ d.block = false ∧
      (v = true → ∃ τ', lastHdr es = some τ' ∧ τ'.ip = d.τ.ip)

theorem inDoubt_dir (env : LogEnv) (es : List LogEntry) (ts : Int) : inDoubt env (es ++ [.dirInvalidation ts]) = true := by
  rw [inDoubt_snoc]; rfl

theorem Pd.dir (v : Bool) (es : List LogEntry) (ts : Int) (d : Dirty) : Pd v (es ++ [.dirInvalidation ts]) d := by
  intro env _ hx
  rw [inDoubt_dir] at hx; cases hx

theorem inDoubt_plain (env : LogEnv) (es l : List LogEntry) (h : ∀ e ∈ l, e.plain = true) :
    inDoubt env (es ++ l) = inDoubt env es := by
  induction l using List.reverseRecOn with
  | nil => simp
  | append_singleton l e ih =>
    have he := h e (by simp)
    rw [← List.append_assoc, inDoubt_snoc, ih (fun x hx => h x (by simp [hx]))]
    cases e <;> simp [LogEntry.plain, LogEntry.resets, LogEntry.confirms] at he ⊢

theorem lastHdr_plain (es l : List LogEntry) (h : ∀ e ∈ l, e.plain = true) : lastHdr (es ++ l) = lastHdr es := by
  rw [lastHdr_append, plain_no_hdr h]; rfl

theorem Pd.plain {v : Bool} {es l : List LogEntry} {d : Dirty} (h : Pd v es d) (hl : ∀ e ∈ l, e.plain = true) :
    Pd v (es ++ l) d := by
  intro env hc hx
  rw [inDoubt_plain env es l hl] at hx
  rw [lastHdr_plain es l hl]
  exact h env hc hx

theorem config_mode {p q : Bool} {c : Int} (h : c = transferConfig p true) (h' : c = transferConfig q false) : False := by
  rw [h] at h'
  cases p <;> cases q <;> revert h' <;> decide

/-- A header of a log based session. -/
theorem Pd.log_header {v : Bool} {es : List LogEntry} {d : Dirty} {p : Bool} {c : Int} (hc : c = transferConfig p false)
    (ts w : Int) (r i : Bytes) : Pd v (es ++ [.header ts w r i c]) d := by
  intro env he hx
  exfalso
  have : inDoubt env (es ++ [.header ts w r i c]) = true := by
    refine inDoubt_of_hdr (τ := ⟨r, c, i⟩) (by rw [lastHdr_append]; rfl) ?_
    rintro ⟨_, h2⟩
    exact config_mode he (h2.symm.trans hc)
  rw [this] at hx; cases hx

/-- A header of a size based session that accepted the log. -/
theorem Pd.tree_header {v : Bool} {es : List LogEntry} {d : Dirty} (h : Pd v es d) {env : LogEnv}
    (hd : inDoubt env es = false) (hc : env.config = transferConfig env.prealloc true) (ts w : Int) (i : Bytes)
    (hi : v = true → ∀ τ', lastHdr es = some τ' → τ'.ip = i) : Pd v (es ++ [.header ts w env.recoveryId i env.config]) d := by
  intro env' he hx
  have hl : lastHdr (es ++ [.header ts w env.recoveryId i env.config]) = some ⟨env.recoveryId, env.config, i⟩ := by
    rw [lastHdr_append]; rfl
  have henv : env.recoveryId = env'.recoveryId ∧ env.config = env'.config := by
    by_contra hc
    have := inDoubt_of_hdr (env := env') hl hc
    rw [hx] at this; cases this
  obtain ⟨k1, k2, k3, k4, k5⟩ := h env hc hd
  refine ⟨k1.trans henv.1, k2.trans henv.2, k3, k4, fun hv => ⟨_, hl, ?_⟩⟩
  obtain ⟨τ', m1, m2⟩ := k5 hv
  rw [← m2]
  exact (hi hv τ' m1).symm

/-- What is known about a running process whose log has the entries `es`. -/
structure TFacts (v : Bool) (T : TreeSys) (es : List LogEntry) : Prop where
  pd : ∀ d ∈ T.dirty, Pd v es d
  st : T.s.m.fd = true → T.s.m.status = eOK ∨ T.s.m.status = eINCONSISTENT_DIRECTORY
  doubt : T.s.m.fd = true → T.s.m.status = eINCONSISTENT_DIRECTORY → (T.s.settled = false ∨ T.s.m.env.dirTree = true) →
    ∀ env, inDoubt env es = true
  sure : T.s.m.fd = true → T.s.m.status = eOK → (T.s.settled = false ∨ T.s.m.env.dirTree = true) →
    inDoubt T.s.m.env es = false
  ip : T.s.m.fd = true → v = true → T.s.connected = true → T.s.m.status = eOK → (T.s.settled = false ∨ T.s.m.env.dirTree = true) →
    ∀ τ', lastHdr es = some τ' → τ'.ip = T.s.peer
  hdr : T.s.m.fd = true → T.s.settled = true → (T.s.m.env.dirTree = false ∨ T.s.m.status = eOK) → lastHdr es = some T.s.tag
  ok : T.s.m.fd = true → T.s.settled = true → T.s.m.env.dirTree = false → T.s.m.status = eOK
  kind : T.s.m.fd = true → T.s.settled = true → T.s.m.env.dirTree = true → T.s.m.status = eOK →
    T.s.resuming = true ∧ T.block = false
  clm : T.s.m.env.dirTree = true → T.s.m.claims ≠ [] → T.s.settled = false →
    (T.s.m.fd = true → T.s.m.status = eOK) ∧ (T.s.connected = true → T.s.m.fd = true)
  cfg : T.s.m.env.config = transferConfig T.s.m.env.prealloc T.s.m.env.dirTree

/-- The invariant. -/
def TreeInv (v : Bool) (T : TreeSys) : Prop :=
  (T.s.m.up = true → ∃ es t, LogIs T.s.m.log es t ∧ TFacts v T es) ∧
  (T.s.m.up = false → ∃ es t, LogIs T.s.m.log es t ∧ ∀ d ∈ T.dirty, Pd v es d)

theorem TreeInv.up {v : Bool} {T : TreeSys} (hu : T.s.m.up = true) {es : List LogEntry} {t : Bytes}
    (hl : LogIs T.s.m.log es t) (h : TFacts v T es) : TreeInv v T :=
  ⟨fun _ => ⟨_, _, hl, h⟩, fun hc => by rw [hu] at hc; cases hc⟩

theorem TreeInv.down {v : Bool} {T : TreeSys} (hu : T.s.m.up = false) {es : List LogEntry} {t : Bytes}
    (hl : LogIs T.s.m.log es t) (h : ∀ d ∈ T.dirty, Pd v es d) : TreeInv v T :=
  ⟨fun hc => (by rw [hu] at hc; cases hc), fun _ => ⟨_, _, hl, h⟩⟩

theorem tree_boot {v : Bool} {T : TreeSys} {es : List LogEntry} {t : Bytes} (hl : LogIs T.s.m.log es t)
    (hpd : ∀ d ∈ T.dirty, Pd v es d) (env : LogEnv) (opts : LogOpts) (tree : List FileChunksInfo)
    (ts : Int) (w : Nat) (ha : T.s.Allowed (.boot env opts tree ts w)) :
    TreeInv v (T.step (.boot env opts tree ts w)) := by
  obtain ⟨_, hpo, hnow, hts, hcfg⟩ := ha
  have hnow' : I63 env.now := hnow
  have hts' : (LogEntry.dirInvalidation ts).InRange := hts
  simp only [TreeSys.step, LogSys.step]
  by_cases hpre : (env.dirTree && env.prealloc) = true
  · have hb : T.s.m.boot env opts tree ts w = { log := T.s.m.log, env := env, opts := opts, aborted := true } := by
      unfold LogMgr.boot; rw [if_pos hpre]
    rw [hb]
    exact TreeInv.down rfl hl hpd
  cases hp : parseLog env [] T.s.m.log with
  | error f =>
    have hb : T.s.m.boot env opts tree ts w = { log := T.s.m.log, env := env, opts := opts, aborted := true } := by
      unfold LogMgr.boot; rw [if_neg hpre, hp]
    rw [hb]
    exact TreeInv.down rfl hl hpd
  | ok out =>
    by_cases hi : out.status = eINVALID_LOG
    · have hb : T.s.m.boot env opts tree ts w = { log := out.log, up := true, fd := false, env := env, opts := opts, status := out.status, senderIp := out.senderIp, claims := out.infos } := by
        unfold LogMgr.boot; rw [if_neg hpre, hp]; simp only [if_pos hi]
      rw [hb]
      obtain ⟨t', hl'⟩ := parse_invalid hpo hl hp hi
      refine TreeInv.up rfl hl' ?_
      constructor
      · exact hpd
      · intro hx; cases hx
      · intro hx; cases hx
      · intro hx; cases hx
      · intro hx; cases hx
      · intro hx; cases hx
      · intro hx; cases hx
      · intro hx; cases hx
      · intro _ _ _
        exact ⟨fun hx => (by cases hx), fun hx => (by cases hx)⟩
      · exact hcfg
    · obtain ⟨⟨lost, hl'⟩, hst, hip, hsay, hno⟩ := parse_known hpo hnow' hl hp hi
      have hlost : ∀ e ∈ lost.map (LogEntry.fileInvalidation env.now), e.plain = true := by
        intro e he
        obtain ⟨i, _, rfl⟩ := List.mem_map.1 he
        rfl
      have hpd' : ∀ d ∈ T.dirty, Pd v (es ++ lost.map (LogEntry.fileInvalidation env.now)) d :=
        fun d hd => (hpd d hd).plain hlost
      by_cases hc : out.status = eINCONSISTENT_DIRECTORY
      · have hb : T.s.m.boot env opts tree ts w = LogMgr.invalidateDirectory ts w 0 { log := out.log, up := true, fd := true, env := env, opts := opts, status := out.status, senderIp := out.senderIp, claims := out.infos } := by
          unfold LogMgr.boot; rw [if_neg hpre, hp]; simp only [if_neg hi, if_pos hc]
        rw [hb]
        obtain ⟨e1, e2⟩ := invalidate_eq (m := { log := out.log, up := true, fd := true, env := env, opts := opts, status := out.status, senderIp := out.senderIp, claims := out.infos }) rfl rfl ts w 0
        obtain ⟨w1, w2⟩ := write_entry hl' hts' w
        have hinf : out.infos = [] := hno (by rw [hc]; decide)
        by_cases hf : fullWrite (.dirInvalidation ts) w = true
        · rw [e1 hf]
          refine TreeInv.up rfl (w1 hf) ?_
          constructor
          · intro d _; exact Pd.dir v _ ts d
          · intro _; exact Or.inr rfl
          · intro _ _ _ env'; exact inDoubt_dir ..
          · intro _ hx; exact absurd hx (show eINCONSISTENT_DIRECTORY ≠ eOK by decide)
          · intro _ _ hx; cases hx
          · intro _ hx; cases hx
          · intro _ hx; cases hx
          · intro _ hx; cases hx
          · intro _ hx; exact absurd hinf hx
          · exact hcfg
        · obtain ⟨d1, d2⟩ := e2 (by simpa using hf)
          obtain ⟨t', hw⟩ := w2 (by simpa using hf)
          exact TreeInv.down d2 (by simp only [d1]; exact hw) hpd'
      · have hok : out.status = eOK := by
          rw [hst]; rw [hst] at hc
          split
          · rename_i hx; rw [if_pos hx] at hc; exact absurd rfl hc
          · rfl
        have hdb : inDoubt env es = false := by
          by_contra hx
          rw [if_pos (by simpa using hx)] at hst
          exact hc hst
        have main : ∀ cl : List FileChunksInfo,
            TreeInv v { T with s := { m := { log := out.log, up := true, fd := true, env := env, opts := opts, status := out.status, senderIp := out.senderIp, claims := cl }, n := T.s.n + 1, usable := decide (out.status ≠ eINVALID_LOG), tr := T.s.tr } } := by
          intro cl
          refine TreeInv.up rfl hl' ?_
          constructor
          · exact hpd'
          · intro _; exact Or.inl hok
          · intro _ hx; exact absurd (hok.symm.trans hx) (by decide)
          · intro _ _ _; rw [inDoubt_plain env _ _ hlost]; exact hdb
          · intro _ _ hx; cases hx
          · intro _ hx; cases hx
          · intro _ hx; cases hx
          · intro _ hx; cases hx
          · intro _ _ _; exact ⟨fun _ => hok, fun _ => rfl⟩
          · exact hcfg
        by_cases hdt : env.dirTree = true
        · by_cases hin : out.infos = []
          · have hb : T.s.m.boot env opts tree ts w = { log := out.log, up := true, fd := true, env := env, opts := opts, status := out.status, senderIp := out.senderIp, claims := tree } := by
              unfold LogMgr.boot; rw [if_neg hpre, hp]; simp only [if_neg hi, if_neg hc, if_pos (And.intro hok hdt), if_pos hin]
            rw [hb]
            exact main _
          · have hb : T.s.m.boot env opts tree ts w = LogMgr.abort { log := out.log, up := true, fd := true, env := env, opts := opts, status := out.status, senderIp := out.senderIp, claims := out.infos } := by
              unfold LogMgr.boot; rw [if_neg hpre, hp]; simp only [if_neg hi, if_neg hc, if_pos (And.intro hok hdt), if_neg hin]
            rw [hb]
            exact TreeInv.down rfl hl' hpd'
        · have hb : T.s.m.boot env opts tree ts w = { log := out.log, up := true, fd := true, env := env, opts := opts, status := out.status, senderIp := out.senderIp, claims := out.infos } := by
            unfold LogMgr.boot; rw [if_neg hpre, hp]; simp only [if_neg hi, if_neg hc, hdt, and_false, if_false, Bool.false_eq_true]
          rw [hb]
          exact main _

/-- Facts are kept when plain entries are added to the log. -/
theorem TFacts.plain {v : Bool} {T : TreeSys} {es l : List LogEntry} (h : TFacts v T es) (hl : ∀ e ∈ l, e.plain = true)
    (m : LogMgr) (h1 : m.fd = T.s.m.fd) (h2 : m.status = T.s.m.status) (h3 : m.env = T.s.m.env) (h4 : m.claims = T.s.m.claims) :
    TFacts v { T with s := { T.s with m := m } } (es ++ l) := by
  constructor
  · exact fun d hd => (h.pd d hd).plain hl
  · simp only [h1, h2]; exact h.st
  · simp only [h1, h2, h3, inDoubt_plain _ es l hl]; exact h.doubt
  · simp only [h1, h2, h3, inDoubt_plain _ es l hl]; exact h.sure
  · simp only [h1, h2, h3, lastHdr_plain es l hl]; exact h.ip
  · simp only [h1, h2, h3, lastHdr_plain es l hl, LogSys.tag]; exact h.hdr
  · simp only [h1, h2, h3]; exact h.ok
  · simp only [h1, h2, h3]; exact h.kind
  · simp only [h1, h2, h3, h4]; exact h.clm
  · simp only [h3]; exact h.cfg

/-- A round of the writer thread. -/
theorem tree_flush_log {v : Bool} {s : LogSys} {es0 es1 : List LogEntry} {t : Bytes} {tr0 tr1 : List TItem}
    (h : Up v false s es0 es1 t tr0 tr1) (w : Nat) :
    ∃ l t', LogIs (s.m.flush w).log (es0 ++ es1 ++ l) t' ∧ ∀ e ∈ l, e.plain = true := by
  by_cases hwr : s.m.writer = true
  · obtain ⟨hfd, hdt⟩ := h.wfd hwr
    have ht := h.torn hfd (Or.inl hwr)
    subst ht
    obtain ⟨m, t', h1, _, _⟩ := write_entries h.log (fun e he => (h.pend e he).1) w
    refine ⟨s.m.pending.take m, t', ?_, fun e he => (h.pend e (List.mem_of_mem_take he)).2⟩
    · unfold LogMgr.flush; rw [if_pos hwr]; exact h1
  · refine ⟨[], t, ?_, by simp⟩
    unfold LogMgr.flush; rw [if_neg hwr, List.append_nil]; exact h.log

theorem tree_flush {v : Bool} {T : TreeSys} (hu : T.s.m.up = true) {es0 es1 : List LogEntry} {t : Bytes} {tr0 tr1 : List TItem}
    (h : Up v false T.s es0 es1 t tr0 tr1) (hf : TFacts v T (es0 ++ es1)) (w : Nat) : TreeInv v (T.step (.flush w)) := by
  obtain ⟨l, t', h1, h2⟩ := tree_flush_log h w
  have hm : (T.s.m.flush w).fd = T.s.m.fd ∧ (T.s.m.flush w).status = T.s.m.status ∧ (T.s.m.flush w).env = T.s.m.env ∧
      (T.s.m.flush w).claims = T.s.m.claims ∧ (T.s.m.flush w).up = T.s.m.up := by
    unfold LogMgr.flush; split <;> exact ⟨rfl, rfl, rfl, rfl, rfl⟩
  simp only [TreeSys.step, LogSys.step]
  exact TreeInv.up (hm.2.2.2.2.trans hu) h1 (hf.plain h2 _ hm.1 hm.2.1 hm.2.2.1 hm.2.2.2.1)

theorem tree_add {v : Bool} {T : TreeSys} (hu : T.s.m.up = true) {es : List LogEntry} {t : Bytes}
    (hl : LogIs T.s.m.log es t) (hf : TFacts v T es) (e : LogEntry) : TreeInv v (T.step (.add e)) := by
  have key : ((T.s.m.add e).up = false ∧ (T.s.m.add e).log = T.s.m.log) ∨
      ((T.s.m.add e).up = true ∧ (T.s.m.add e).log = T.s.m.log ∧ (T.s.m.add e).fd = T.s.m.fd ∧
        (T.s.m.add e).status = T.s.m.status ∧ (T.s.m.add e).env = T.s.m.env ∧ (T.s.m.add e).claims = T.s.m.claims) := by
    have aux : ∀ b : Bool, ∀ m', m' = (if b then match e.record with | .ok _ => { T.s.m with pending := T.s.m.pending ++ [e] } | .error _ => T.s.m.abort else T.s.m) →
        (m'.up = false ∧ m'.log = T.s.m.log) ∨ (m'.up = true ∧ m'.log = T.s.m.log ∧ m'.fd = T.s.m.fd ∧
          m'.status = T.s.m.status ∧ m'.env = T.s.m.env ∧ m'.claims = T.s.m.claims) := by
      intro b m' hm'
      subst hm'
      cases b with
      | false => exact Or.inr ⟨hu, rfl, rfl, rfl, rfl, rfl⟩
      | true =>
        cases e.record with
        | ok b => exact Or.inr ⟨hu, rfl, rfl, rfl, rfl, rfl⟩
        | error f => exact Or.inl ⟨rfl, rfl⟩
    exact aux _ _ rfl
  simp only [TreeSys.step, LogSys.step]
  rcases key with ⟨k1, k2⟩ | ⟨k1, k2, k3, k4, k5, k6⟩
  · exact TreeInv.down (es := es) (t := t) k1 (by rw [k2]; exact hl) hf.pd
  · have := hf.plain (l := []) (by simp) (T.s.m.add e) k3 k4 k5 k6
    rw [List.append_nil] at this
    exact TreeInv.up (es := es) (t := t) k1 (by rw [k2]; exact hl)
      ⟨this.pd, this.st, this.doubt, this.sure, this.ip, this.hdr, this.ok, this.kind, this.clm, this.cfg⟩

theorem tree_data {v : Bool} {T : TreeSys} (hu : T.s.m.up = true) {es : List LogEntry} {t : Bytes}
    (hl : LogIs T.s.m.log es t) (hf : TFacts v T es) (hs : T.s.settled = true) (hfd : T.s.m.fd = true) :
    TreeInv v (T.step .data) := by
  refine TreeInv.up (es := es) (t := t) hu hl ⟨?_, hf.st, hf.doubt, hf.sure, hf.ip, hf.hdr, hf.ok, hf.kind, hf.clm, hf.cfg⟩
  intro d hd
  rcases List.mem_append.1 hd with hd | hd
  · exact hf.pd d hd
  rw [List.mem_singleton] at hd
  subst hd
  intro env hc hx
  have hdr : lastHdr es = some T.s.tag → T.s.tag.rid = env.recoveryId ∧ T.s.tag.cfg = env.config := by
    intro hh
    by_contra hcon
    have := inDoubt_of_hdr (env := env) hh hcon
    rw [hx] at this; cases this
  by_cases hdt : T.s.m.env.dirTree = true
  · rcases hf.st hfd with hst | hst
    · have hh := hf.hdr hfd hs (Or.inr hst)
      obtain ⟨k1, k2⟩ := hdr hh
      obtain ⟨k3, k4⟩ := hf.kind hfd hs hdt hst
      exact ⟨k1, k2, k3, k4, fun _ => ⟨_, hh, rfl⟩⟩
    · have := hf.doubt hfd hst (Or.inr hdt) env
      rw [hx] at this; cases this
  · have hdt' : T.s.m.env.dirTree = false := by simpa using hdt
    have hh := hf.hdr hfd hs (Or.inl hdt')
    have hcfg := hf.cfg
    rw [hdt'] at hcfg
    exact absurd (hcfg.symm.trans ((hdr hh).2.trans hc)) (fun hx => config_mode rfl hx.symm)

theorem tree_connect {v : Bool} {T : TreeSys} (hu : T.s.m.up = true) {es0 es1 : List LogEntry} {t : Bytes} {tr0 tr1 : List TItem}
    (h : Up v false T.s es0 es1 t tr0 tr1) (hf : TFacts v T (es0 ++ es1)) (ip : Bytes) (res : Bool) (ts : Int) (w wc : Nat)
    (ha : T.s.Allowed (.connect ip res ts w wc)) : TreeInv v (T.step (.connect ip res ts w wc)) := by
  obtain ⟨_, hc, hip, hlen, hts⟩ := ha
  obtain ⟨i1, i2, i3, i4⟩ := h.idle hc
  obtain ⟨f1, f2, f3⟩ := h.fresh i2
  have hns : T.s.settled ≠ true := by rw [i2]; decide
  have hs0 : ∃ wr, (if !T.s.m.env.dirTree && T.s.m.status = eOK then { T.s.m with writer := true } else T.s.m) = { T.s.m with writer := wr } := by
    split
    · exact ⟨_, rfl⟩
    · exact ⟨T.s.m.writer, rfl⟩
  obtain ⟨wr, hs0⟩ := hs0
  simp only [TreeSys.step, LogSys.step]
  by_cases hfd : T.s.m.fd = true
  · have ht := h.torn hfd (Or.inr (Or.inl i2))
    subst ht
    by_cases hb : (!T.s.m.opts.verifyOff && T.s.m.senderIp ≠ [] && T.s.m.senderIp ≠ ip) = true
    · obtain ⟨e1, e2⟩ := invalidate_eq (m := { T.s.m with writer := wr }) hfd f1 ts w wc
      obtain ⟨w1, w2⟩ := write_entry h.log (show (LogEntry.dirInvalidation ts).InRange from hts) w
      by_cases hw : fullWrite (.dirInvalidation ts) w = true
      · have hm : T.s.m.connect ip ts w wc = { T.s.m with writer := wr, status := eINCONSISTENT_DIRECTORY, log := T.s.m.log ++ (recBytes (.dirInvalidation ts)).take w, senderIp := ip, claims := [] } := by
          unfold LogMgr.connect
          simp only [hs0]
          rw [if_pos hfd, if_pos hb, e1 hw]
          simp only [hu, if_true]
        rw [hm]
        refine TreeInv.up hu (w1 hw) ?_
        constructor
        · intro d _; exact Pd.dir v _ ts d
        · intro _; exact Or.inr rfl
        · intro _ _ _ env; exact inDoubt_dir ..
        · intro _ hx; exact absurd hx (show eINCONSISTENT_DIRECTORY ≠ eOK by decide)
        · intro _ _ _ hx; exact absurd hx (show eINCONSISTENT_DIRECTORY ≠ eOK by decide)
        · intro _ hx; exact absurd hx hns
        · intro _ hx; exact absurd hx hns
        · intro _ hx; exact absurd hx hns
        · intro _ hx; exact absurd rfl hx
        · exact hf.cfg
      · obtain ⟨d1, d2⟩ := e2 (by simpa using hw)
        obtain ⟨t', hl'⟩ := w2 (by simpa using hw)
        have hm : T.s.m.connect ip ts w wc = LogMgr.invalidateDirectory ts w wc { T.s.m with writer := wr } := by
          unfold LogMgr.connect
          simp only [hs0]
          rw [if_pos hfd, if_pos hb, if_neg (by rw [d2]; decide)]
        rw [hm]
        exact TreeInv.down d2 (by rw [d1]; exact hl') hf.pd
    · have hm : T.s.m.connect ip ts w wc = { T.s.m with writer := wr, senderIp := ip } := by
        unfold LogMgr.connect
        simp only [hs0]
        rw [if_pos hfd, if_neg hb]
      rw [hm]
      refine TreeInv.up hu h.log ⟨hf.pd, hf.st, hf.doubt, hf.sure, ?_, ?_, ?_, ?_, ?_, hf.cfg⟩
      · intro _ hv _ _ _ τ' hτ
        have hes1 : lastHdr es1 = none := lastHdr_none (fun ts w r s c hm => by
          obtain ⟨_, hx⟩ := f3 _ hm; cases hx)
        rw [lastHdr_append, hes1] at hτ
        have hτ0 : lastHdr es0 = some τ' := hτ
        have hsi := i4 hfd
        rw [hτ0] at hsi
        have hsi' : T.s.m.senderIp = τ'.ip := hsi
        have hne : τ'.ip ≠ [] := by
          obtain ⟨ts', w', hin⟩ := lastHdr_mem hτ0
          exact (h.hdrOk _ _ _ _ _ (List.mem_append_left _ hin)).1
        show τ'.ip = ip
        by_contra hcon
        apply hb
        rw [h.ver hv, hsi']
        simp [hne, hcon]
      · intro _ hx; exact absurd hx hns
      · intro _ hx; exact absurd hx hns
      · intro _ hx; exact absurd hx hns
      · intro k1 k2 k3; exact ⟨(hf.clm k1 k2 k3).1, fun _ => hfd⟩
  · have hm : T.s.m.connect ip ts w wc = { T.s.m with writer := wr, claims := [] } := by
      unfold LogMgr.connect
      simp only [hs0]
      rw [if_neg hfd]
    rw [hm]
    refine TreeInv.up hu h.log ⟨hf.pd, fun hx => absurd hx hfd, fun hx => absurd hx hfd, fun hx => absurd hx hfd,
      fun hx => absurd hx hfd, fun hx => absurd hx hfd, fun hx => absurd hx hfd, fun hx => absurd hx hfd, fun _ hx => absurd rfl hx, hf.cfg⟩

/-- The second part of `addTransferLogHeader`. -/
theorem tree_header {v : Bool} {T : TreeSys} (hu : T.s.m.up = true) {es : List LogEntry} (hl : LogIs T.s.m.log es [])
    (hpd : ∀ d ∈ T.dirty, Pd v es d) (hfd : T.s.m.fd = true) (hp : T.s.m.pending = []) (hip : T.s.m.senderIp = T.s.peer)
    (hlen : T.s.m.env.recoveryId.length + T.s.peer.length ≤ 4095)
    (hst : T.s.m.status = eOK ∨ T.s.m.status = eINCONSISTENT_DIRECTORY)
    (hdoubt : T.s.m.status = eINCONSISTENT_DIRECTORY → ∀ env, inDoubt env es = true)
    (hok : T.s.m.status = eOK → inDoubt T.s.m.env es = false ∧ (v = true → ∀ τ', lastHdr es = some τ' → τ'.ip = T.s.peer) ∧
      (T.s.m.env.dirTree = true → T.s.resuming = true ∧ T.block = false))
    (hcfg : T.s.m.env.config = transferConfig T.s.m.env.prealloc T.s.m.env.dirTree)
    (ts : Int) (w wc : Nat) (hts : 0 ≤ ts ∧ ts ≤ int64Max) :
    TreeInv v { T with s := { T.s with m := (if !T.s.m.env.dirTree || T.s.m.status ≠ eINCONSISTENT_DIRECTORY then T.s.m.writeLogHeader ts w wc else T.s.m), settled := true } } := by
  by_cases hb : (!T.s.m.env.dirTree || T.s.m.status ≠ eINCONSISTENT_DIRECTORY) = true
  · rw [if_pos hb]
    obtain ⟨e1, e2⟩ := header_eq hfd hp ts w wc
    have hrange : (LogEntry.header ts WLOG_VERSION T.s.m.env.recoveryId T.s.m.senderIp T.s.m.env.config).InRange := by
      rw [hip]
      refine ⟨hts, ?_, ?_, hlen⟩
      · constructor <;> decide
      · rw [hcfg]
        cases T.s.m.env.prealloc <;> cases T.s.m.env.dirTree <;> exact ⟨by decide, by decide⟩
    obtain ⟨w1, w2⟩ := write_entry hl hrange w
    by_cases hf : fullWrite (.header ts WLOG_VERSION T.s.m.env.recoveryId T.s.m.senderIp T.s.m.env.config) w = true
    · rw [e1 hf]
      have hst' : T.s.m.env.dirTree = true → T.s.m.status = eOK := by
        intro hdt
        rcases hst with hx | hx
        · exact hx
        · rw [hdt, hx] at hb; exact absurd hb (by decide)
      refine TreeInv.up hu (w1 hf) ?_
      constructor
      · intro d hd
        by_cases hdt : T.s.m.env.dirTree = true
        · obtain ⟨o1, o2, _⟩ := hok (hst' hdt)
          rw [hip]
          exact (hpd d hd).tree_header o1 (by rw [hdt] at hcfg; exact hcfg) _ _ _ o2
        · exact Pd.log_header (p := T.s.m.env.prealloc) (by rw [hcfg]; simp only [Bool.not_eq_true] at hdt; rw [hdt]) _ _ _ _
      · intro _; exact Or.inl rfl
      · intro _ hx; exact absurd hx (show eOK ≠ eINCONSISTENT_DIRECTORY by decide)
      · intro _ _ _
        rw [inDoubt_snoc]
        simp [LogEntry.resets, LogEntry.confirms]
      · intro _ _ _ _ _ τ' hτ
        rw [lastHdr_append] at hτ
        have : τ' = ⟨T.s.m.env.recoveryId, T.s.m.env.config, T.s.m.senderIp⟩ := (Option.some.inj hτ).symm
        rw [this]; exact hip
      · intro _ _ _
        rw [lastHdr_append, hip]; rfl
      · intro _ _ _; rfl
      · intro _ _ hdt _; exact (hok (hst' hdt)).2.2 hdt
      · intro _ _ hx; cases hx
      · exact hcfg
    · rw [e2 (by simpa using hf)]
      obtain ⟨t', hl'⟩ := w2 (by simpa using hf)
      refine TreeInv.up hu hl' ⟨hpd, ?_, ?_, ?_, ?_, ?_, ?_, ?_, ?_, hcfg⟩
      all_goals first | (intro hx; cases hx; done) | (intro _ _ hx; cases hx; done)
  · rw [if_neg hb]
    have hx : T.s.m.env.dirTree = true ∧ T.s.m.status = eINCONSISTENT_DIRECTORY := by simpa using hb
    refine TreeInv.up hu hl ⟨hpd, fun _ => hst, fun _ hs _ => hdoubt hs, ?_, ?_, ?_, ?_, ?_, ?_, hcfg⟩
    · intro _ hs; exact absurd (hx.2.symm.trans hs) (by decide)
    · intro _ _ _ hs; exact absurd (hx.2.symm.trans hs) (by decide)
    · intro _ _ hs
      rcases hs with hs | hs
      · have hs' : T.s.m.env.dirTree = false := hs
        rw [hx.1] at hs'; cases hs'
      · exact absurd (hx.2.symm.trans hs) (by decide)
    · intro _ _ hs
      have hs' : T.s.m.env.dirTree = false := hs
      rw [hx.1] at hs'; cases hs'
    · intro _ _ _ hs; exact absurd (hx.2.symm.trans hs) (by decide)
    · intro _ _ hs; cases hs

theorem tree_settle {v : Bool} {T : TreeSys} (hu : T.s.m.up = true) {es0 es1 : List LogEntry} {t : Bytes} {tr0 tr1 : List TItem}
    (h : Up v false T.s es0 es1 t tr0 tr1) (hf : TFacts v T (es0 ++ es1)) (bm : Bool) (ts1 ts2 : Int) (w1 w2 wc : Nat)
    (ha : T.s.Allowed (.settle bm ts1 ts2 w1 w2 wc)) : TreeInv v (T.step (.settle bm ts1 ts2 w1 w2 wc)) := by
  obtain ⟨_, hc, hset, hts1, hts2⟩ := ha
  obtain ⟨f1, f2, f3⟩ := h.fresh hset
  simp only [TreeSys.step, LogSys.step]
  by_cases hfd : T.s.m.fd = true
  · have ht := h.torn hfd (Or.inr (Or.inl hset))
    subst ht
    obtain ⟨c1, c2, c3⟩ := h.conn hc hfd
    by_cases hb : (!T.s.resuming || (T.s.m.env.dirTree && bm)) = true
    · obtain ⟨e1, e2⟩ := invalidate_eq hfd f1 ts1 w1 wc
      obtain ⟨k1, k2⟩ := write_entry h.log (show (LogEntry.dirInvalidation ts1).InRange from hts1) w1
      by_cases hw : fullWrite (.dirInvalidation ts1) w1 = true
      · have hm : T.s.m.logHeader bm T.s.resuming ts1 ts2 w1 w2 wc =
            (if !T.s.m.env.dirTree || eINCONSISTENT_DIRECTORY ≠ eINCONSISTENT_DIRECTORY then LogMgr.writeLogHeader ts2 w2 wc { T.s.m with status := eINCONSISTENT_DIRECTORY, log := T.s.m.log ++ (recBytes (.dirInvalidation ts1)).take w1 } else { T.s.m with status := eINCONSISTENT_DIRECTORY, log := T.s.m.log ++ (recBytes (.dirInvalidation ts1)).take w1 }) := by
          unfold LogMgr.logHeader
          simp only [if_pos hb, e1 hw, hu, if_true]
        rw [hm]
        exact tree_header (T := { T with s := { T.s with m := { T.s.m with status := eINCONSISTENT_DIRECTORY, log := T.s.m.log ++ (recBytes (.dirInvalidation ts1)).take w1 } }, block := bm })
          hu (k1 hw) (fun d _ => Pd.dir v _ ts1 d) hfd f1 c1 c3 (Or.inr rfl) (fun _ _ => inDoubt_dir ..)
          (fun hx => absurd hx (show eINCONSISTENT_DIRECTORY ≠ eOK by decide)) hf.cfg ts2 w2 wc hts2
      · obtain ⟨d1, d2⟩ := e2 (by simpa using hw)
        obtain ⟨t', hl'⟩ := k2 (by simpa using hw)
        have hm : T.s.m.logHeader bm T.s.resuming ts1 ts2 w1 w2 wc = T.s.m.invalidateDirectory ts1 w1 wc := by
          unfold LogMgr.logHeader
          simp only [if_pos hb, d2, Bool.false_eq_true, if_false]
        rw [hm]
        exact TreeInv.down d2 (by rw [d1]; exact hl') hf.pd
    · have hm : T.s.m.logHeader bm T.s.resuming ts1 ts2 w1 w2 wc =
          (if !T.s.m.env.dirTree || T.s.m.status ≠ eINCONSISTENT_DIRECTORY then T.s.m.writeLogHeader ts2 w2 wc else T.s.m) := by
        unfold LogMgr.logHeader
        simp only [if_neg hb, hu, if_true]
      rw [hm]
      have hb' : T.s.resuming = true ∧ (T.s.m.env.dirTree = true → bm = false) := by
        revert hb
        cases T.s.resuming <;> cases T.s.m.env.dirTree <;> cases bm <;> simp
      exact tree_header (T := { T with block := bm }) hu h.log hf.pd hfd f1 c1 c3 (hf.st hfd)
        (fun hx => hf.doubt hfd hx (Or.inl hset))
        (fun hx => ⟨hf.sure hfd hx (Or.inl hset), fun hv => hf.ip hfd hv hc hx (Or.inl hset), fun hd => ⟨hb'.1, hb'.2 hd⟩⟩)
        hf.cfg ts2 w2 wc hts2
  · have hm : T.s.m.logHeader bm T.s.resuming ts1 ts2 w1 w2 wc = T.s.m := by
      unfold LogMgr.logHeader LogMgr.invalidateDirectory LogMgr.writeLogHeader
      simp [hfd, hu]
    rw [hm]
    refine TreeInv.up hu h.log ⟨hf.pd, fun hx => absurd hx hfd, fun hx => absurd hx hfd, fun hx => absurd hx hfd,
      fun hx => absurd hx hfd, fun hx => absurd hx hfd, fun hx => absurd hx hfd, fun hx => absurd hx hfd, fun _ _ hx => (by cases hx), hf.cfg⟩

theorem finish_down (s : LogMgr) (ok : Bool) (disk : Bytes → Option Int) (tr ap : Bool) (now : Int) (wh w1 w2 w3 wc : Nat) :
    (s.finish ok disk tr ap now wh w1 w2 w3 wc).up = false := by
  have aux : ∀ (m : LogMgr) (c : LogMgr → Bool), (if m.up = true then (if c m = true then { { m.closeLog wc with up := false } with log := [] } else { m.closeLog wc with up := false }) else m).up = false := by
    intro m c
    by_cases hm : m.up = true
    · rw [if_pos hm]; split <;> rfl
    · rw [if_neg hm]; simpa using hm
  unfold LogMgr.finish
  simp only
  split
  · rfl
  · exact aux _ (fun m => ok && (decide (s.status = eINVALID_LOG) || !(m.closeLog wc).opts.keepLog))

theorem tree_inv {v : Bool} {T : TreeSys} (h : TreeReach v T) : TreeInv v T := by
  induction h with
  | init env =>
    obtain ⟨es, t, h1, _⟩ := fine_nil v false []
    exact TreeInv.down (T := { s := { m := { env := env } } }) rfl h1 (by simp)
  | @step T op hr ha hg ih =>
    have hI := reach_inv hr.logReach
    have both : T.s.m.up = true → ∃ es0 es1 t tr0 tr1, Up v false T.s es0 es1 t tr0 tr1 ∧ TFacts v T (es0 ++ es1) := by
      intro hu
      obtain ⟨es0, es1, t, tr0, tr1, h1⟩ := hI.1 hu
      obtain ⟨es, t', h2, h3⟩ := ih.1 hu
      obtain ⟨rfl, rfl⟩ := logIs_unique h2 h1.log
      exact ⟨_, _, _, _, _, h1, h3⟩
    cases op with
    | boot env opts tree ts w =>
      obtain ⟨es, t, h1, h2⟩ := ih.2 ha.1
      exact tree_boot h1 h2 env opts tree ts w ha
    | connect ip res ts w wc =>
      obtain ⟨es0, es1, t, tr0, tr1, h1, h2⟩ := both ha.1
      exact tree_connect ha.1 h1 h2 ip res ts w wc ha
    | settle bm ts1 ts2 w1 w2 wc =>
      obtain ⟨es0, es1, t, tr0, tr1, h1, h2⟩ := both ha.1
      exact tree_settle ha.1 h1 h2 bm ts1 ts2 w1 w2 wc ha
    | add e =>
      obtain ⟨es0, es1, t, tr0, tr1, h1, h2⟩ := both ha.1
      exact tree_add ha.1 h1.log h2 e
    | data =>
      obtain ⟨es0, es1, t, tr0, tr1, h1, h2⟩ := both ha.1
      exact tree_data ha.1 h1.log h2 hg.1 hg.2
    | flush w =>
      obtain ⟨es0, es1, t, tr0, tr1, h1, h2⟩ := both ha.1
      exact tree_flush ha.1 h1 h2 w
    | finish ok disk tr ap now wh w1 w2 w3 wc =>
      obtain ⟨es0, es1, t, tr0, tr1, h1, h2⟩ := both ha.1
      cases ok with
      | true =>
        have h3 := (finish_inv ha.1 h1 true disk tr ap now wh w1 w2 w3 wc ha).2 (finish_down ..)
        obtain ⟨es, t, h3, _⟩ := h3
        exact TreeInv.down (finish_down ..) h3 (by simp [TreeSys.step])
      | false =>
        obtain ⟨l, t', h3, h4⟩ := tree_flush_log h1 wc
        have hm : (T.s.m.finish false disk tr ap now wh w1 w2 w3 wc).log = (T.s.m.closeLog wc).log := by
          unfold LogMgr.finish
          simp [ha.1]
        simp only [TreeSys.step, LogSys.step]
        rcases closeLog_log T.s.m wc with hx | hx
        · exact TreeInv.down (finish_down ..) (by rw [hm, hx]; exact h1.log) h2.pd
        · exact TreeInv.down (finish_down ..) (by rw [hm, hx]; exact h3) (fun d hd => (h2.pd d hd).plain h4)
    | kill =>
      obtain ⟨es0, es1, t, tr0, tr1, h1, h2⟩ := both ha
      exact TreeInv.down rfl h1.log h2.pd

end Wdt
