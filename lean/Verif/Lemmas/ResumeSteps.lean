import Verif.Lemmas.Resume
/-
The invariant of Model/Resume.
-/
namespace Wdt

/-- A file that the receiver has listed or opened under this number. -/
def DirSys.Known (S : DirSys) (i : Int) (n : Bytes) : Prop :=
  (∃ x ∈ S.listed, x.seqId = i ∧ x.fileName = n) ∨ (i, n) ∈ S.opened

/-- What is known about a running process whose log has the entries `es`. -/
structure Run (src : Tag → Bytes → Option Bytes) (v : Bool) (S : DirSys) (es : List LogEntry) : Prop where
  hon : ∀ l, l <+: S.s.m.pending → Honest src S.files S.safe (es ++ l)
  one : ∀ l, l <+: S.s.m.pending → OneName (es ++ l)
  cl : S.s.settled = false → S.s.usable = true → ∀ x ∈ S.s.m.claims, ∃ τ, lastHdr es = some τ ∧
    τ.rid = S.s.m.env.recoveryId ∧ τ.cfg = S.s.m.env.config ∧ (S.s.connected = true → v = true → τ.ip = S.s.peer) ∧
    HoldsIn (S.files x.fileName) (src τ x.fileName) (S.safe x.fileName) x.chunks ∧ S.sizes x.fileName = some x.fileSize
  cu : S.s.usable = true → ∀ x ∈ S.s.m.claims, ∀ y ∈ S.s.m.claims, x.fileName = y.fileName ∨ x.seqId = y.seqId → x = y
  kn0 : S.s.settled = false → S.s.usable = true → ∀ env i n sz r, Live env es i n sz r →
    ∃ x ∈ S.s.m.claims, x.seqId = i ∧ x.fileName = n
  kn : S.s.settled = true → S.s.usable = true → ∀ l, l <+: S.s.m.pending → ∀ env i n sz r, Live env (es ++ l) i n sz r →
    S.Known i n
  top : S.s.m.headerWritten = true → inDoubt S.s.m.env es = false
  fresh : S.s.settled = false → S.opened = [] ∧ S.ready = [] ∧ S.written = [] ∧ S.gone = []
  t1 : ∀ y ∈ S.opened, ∀ z ∈ S.opened, y.1 = z.1 ∨ y.2 = z.2 → y = z
  t2 : ∀ x ∈ S.listed, ∀ y ∈ S.opened, x.seqId = y.1 ∨ x.fileName = y.2 → x.seqId = y.1 ∧ x.fileName = y.2
  kp : S.s.settled = true → S.s.usable = true → ∀ x ∈ S.listed, x.fileName ∉ S.gone →
    HoldsIn (S.files x.fileName) (src S.s.tag x.fileName) (S.safe x.fileName) x.chunks ∧
    ((∀ y ∈ S.opened, y.2 ≠ x.fileName) → S.sizes x.fileName = some x.fileSize)
  rd : ∀ y ∈ S.opened, HoldsIn (S.files y.2) (src S.s.tag y.2) (S.safe y.2) []
  wr : ∀ w ∈ S.written, (∃ q ∈ S.ready, (q, w.1) ∈ S.opened) ∧ ∃ c b, S.files w.1 = some c ∧ src S.s.tag w.1 = some b ∧
    ∀ p, w.2.1 ≤ p → p < w.2.1 + w.2.2 → p < c.length ∧ c[p]? = b[p]?
  go : ∀ n ∈ S.gone, ∀ y ∈ S.opened, y.2 ≠ n
  dt : S.s.m.env.dirTree = false

/-- The invariant. -/
def DirInv (src : Tag → Bytes → Option Bytes) (v : Bool) (S : DirSys) : Prop :=
  (S.s.m.up = true → ∃ es t, LogIs S.s.m.log es t ∧ Run src v S es) ∧
  (S.s.m.up = false → ∃ es t, LogIs S.s.m.log es t ∧ Honest src S.files S.safe es ∧ OneName es)

theorem DirInv.up {src : Tag → Bytes → Option Bytes} {v : Bool} {S : DirSys} (hu : S.s.m.up = true) {es : List LogEntry} {t : Bytes}
    (hl : LogIs S.s.m.log es t) (h : Run src v S es) : DirInv src v S :=
  ⟨fun _ => ⟨_, _, hl, h⟩, fun hc => by rw [hu] at hc; cases hc⟩

theorem DirInv.down {src : Tag → Bytes → Option Bytes} {v : Bool} {S : DirSys} (hu : S.s.m.up = false) {es : List LogEntry} {t : Bytes}
    (hl : LogIs S.s.m.log es t) (h1 : Honest src S.files S.safe es) (h2 : OneName es) : DirInv src v S :=
  ⟨fun hc => (by rw [hu] at hc; cases hc), fun _ => ⟨_, _, hl, h1, h2⟩⟩

/-- What is live in a running session whose log is in use is of its kind. -/
theorem live_tag {v g : Bool} {s : LogSys} {es0 es1 : List LogEntry} {t : Bytes} {tr0 tr1 : List TItem}
    (h : Up v g s es0 es1 t tr0 tr1) (hu : s.usable = true) (hc : s.connected = true) {l : List LogEntry} (hl : l.Sublist s.m.pending)
    {env : LogEnv} {i : Int} {n : Bytes} {sz : Int} {r : List Interval} (hlive : Live env (es0 ++ es1 ++ l) i n sz r) :
    ∃ τ, lastHdr (es0 ++ es1 ++ l) = some τ ∧ τ.same v s.tag := by
  have hq := h.q_ext l hl
  rw [← List.append_assoc] at hq
  obtain ⟨pre, ts, post, h1, h2, h3, h4⟩ := hlive
  obtain ⟨τ0, k1, k2⟩ := hq pre ts n i sz post h1
  have henv : τ0.rid = env.recoveryId ∧ τ0.cfg = env.config := by
    by_contra hx
    have := inDoubt_of_hdr k1 hx
    rw [h2] at this; cases this
  have hno : ¬ ∃ e ∈ post, Breaks τ0 i e := by
    rintro ⟨e, hm, hb⟩
    have := h3 e hm
    rw [breaks_ends henv.1 henv.2 hb] at this; cases this
  have hsame : τ0.same v s.tag := by
    rw [List.append_assoc] at h1
    rcases split_append h1 with ⟨p, m1, m2⟩ | ⟨p, m1, m2⟩
    · rcases h.mine hu pre ts n i sz p τ0 m1 k1 with ⟨e, hm, hb⟩ | ⟨c1, c2, c3⟩
      · refine absurd ⟨e, ?_, hb⟩ hno
        rw [m2]
        rcases List.mem_append.1 hm with hm | hm
        · exact List.mem_append_left _ hm
        · exact List.mem_append_right _ (List.mem_append_left _ hm)
      · exact ⟨c1, c2, c3 hc⟩
    · have : lastHdr p = some s.tag := by
        rcases split_append m2 with ⟨p', n1, n2⟩ | ⟨p', n1, n2⟩
        · exact h.cre1 _ _ _ _ _ _ n1
        · have hin : LogEntry.fileCreation ts n i sz ∈ s.m.pending := hl.subset (by rw [n2]; simp)
          have hlh := h.hw (h.pendHw _ hin rfl)
          rw [n1, lastHdr_append, hlh, plain_no_hdr]
          · rfl
          · intro e he
            exact (h.pend e (hl.subset (by rw [n2]; simp [he]))).2
      rw [m1, lastHdr_append, this] at k1
      simp only [Option.some_or, Option.some.injEq] at k1
      rw [← k1]; exact Tag.same_refl _ _
  rcases k2 with k2 | ⟨_, _, _, _, _, _, _, _, b3, _, _⟩
  · exact absurd k2 hno
  · rw [h1, lastHdr_append, ← List.singleton_append, lastHdr_append]
    cases hp : lastHdr post with
    | none => exact ⟨τ0, by rw [k1]; rfl, hsame⟩
    | some τ' =>
      obtain ⟨ts3, w3, hm⟩ := lastHdr_mem hp
      exact ⟨τ', by simp, Tag.same_trans (Tag.same_symm (b3 _ _ _ _ _ hm)) hsame⟩

theorem dir_boot {src : Tag → Bytes → Option Bytes} {v : Bool} {S : DirSys} {es : List LogEntry} {t : Bytes}
    (hl : LogIs S.s.m.log es t) (hh : Honest src S.files S.safe es) (ho : OneName es) (hq : QOk v true es S.s.tr)
    (env : LogEnv) (opts : LogOpts) (tree : List FileChunksInfo) (ts : Int) (w : Nat)
    (ha : S.s.Allowed (.boot env opts tree ts w)) (hdt : env.dirTree = false) (hdisk : env.disk = S.sizes) :
    DirInv src v (S.step src (.log (.boot env opts tree ts w))) := by
  obtain ⟨_, hpo, hnow, hts, hcfg⟩ := ha
  have hnow' : I63 env.now := hnow
  have hts' : (LogEntry.dirInvalidation ts).InRange := hts
  simp only [DirSys.step, LogSys.step]
  have hpre : ¬ (env.dirTree && env.prealloc) = true := by rw [hdt]; simp
  cases hp : parseLog env [] S.s.m.log with
  | error f =>
    have hb : S.s.m.boot env opts tree ts w = { log := S.s.m.log, env := env, opts := opts, aborted := true } := by
      unfold LogMgr.boot; rw [if_neg hpre, hp]
    rw [hb]
    exact DirInv.down rfl hl hh ho
  | ok out =>
    by_cases hi : out.status = eINVALID_LOG
    · have hb : S.s.m.boot env opts tree ts w = { log := out.log, up := true, fd := false, env := env, opts := opts, status := out.status, senderIp := out.senderIp, claims := out.infos } := by
        unfold LogMgr.boot; rw [if_neg hpre, hp]; simp only [if_pos hi]
      rw [hb]
      obtain ⟨t', hl'⟩ := parse_invalid hpo hl hp hi
      refine DirInv.up rfl hl' ?_
      have hus : decide (out.status ≠ eINVALID_LOG) = false := by simp [hi]
      constructor
      · intro l hl; rw [List.eq_nil_of_prefix_nil hl, List.append_nil]; exact hh
      · intro l hl; rw [List.eq_nil_of_prefix_nil hl, List.append_nil]; exact ho
      · intro _ hx; rw [hus] at hx; cases hx
      · intro hx; rw [hus] at hx; cases hx
      · intro _ hx; rw [hus] at hx; cases hx
      · intro hx; cases hx
      · intro hx; cases hx
      · intro _; exact ⟨rfl, rfl, rfl, rfl⟩
      · intro y hy; cases hy
      · intro _ _ y hy; cases hy
      · intro hx; cases hx
      · intro y hy; cases hy
      · intro y hy; cases hy
      · intro y hy; cases hy
      · exact hdt
    · obtain ⟨⟨lost, hl'⟩, hst, hip, hsay, hno⟩ := parse_known hpo hnow' hl hp hi
      have hlost := quiet_invals env.now lost
      have hh' := hh.quiets hlost
      have ho' := ho.quiets hlost
      have hus : decide (out.status ≠ eINVALID_LOG) = true := by simp [hi]
      by_cases hc : out.status = eINCONSISTENT_DIRECTORY
      · have hb : S.s.m.boot env opts tree ts w = LogMgr.invalidateDirectory ts w 0 { log := out.log, up := true, fd := true, env := env, opts := opts, status := out.status, senderIp := out.senderIp, claims := out.infos } := by
          unfold LogMgr.boot; rw [if_neg hpre, hp]; simp only [if_neg hi, if_pos hc]
        rw [hb]
        obtain ⟨e1, e2⟩ := invalidate_eq (m := { log := out.log, up := true, fd := true, env := env, opts := opts, status := out.status, senderIp := out.senderIp, claims := out.infos }) rfl rfl ts w 0
        obtain ⟨w1, w2⟩ := write_entry hl' hts' w
        have hinf : out.infos = [] := hno (by rw [hc]; decide)
        by_cases hf : fullWrite (.dirInvalidation ts) w = true
        · rw [e1 hf]
          refine DirInv.up rfl (w1 hf) ?_
          constructor
          · intro l hl; rw [List.eq_nil_of_prefix_nil hl, List.append_nil]; exact Honest.dir _ _
          · intro l hl; rw [List.eq_nil_of_prefix_nil hl, List.append_nil]; exact OneName.dir _ _
          · intro _ _ x hx; simp only [hinf] at hx; cases hx
          · intro _ x hx; simp only [hinf] at hx; cases hx
          · intro _ _ env' i n sz r hlive; exact absurd hlive no_live_dir
          · intro hx; cases hx
          · intro hx; cases hx
          · intro _; exact ⟨rfl, rfl, rfl, rfl⟩
          · intro y hy; cases hy
          · intro _ _ y hy; cases hy
          · intro hx; cases hx
          · intro y hy; cases hy
          · intro y hy; cases hy
          · intro y hy; cases hy
          · exact hdt
        · obtain ⟨d1, d2⟩ := e2 (by simpa using hf)
          obtain ⟨t', hw⟩ := w2 (by simpa using hf)
          exact DirInv.down d2 (by simp only [d1]; exact hw) hh' ho'
      · have hok : out.status = eOK := by
          rw [hst]; rw [hst] at hc
          split
          · rename_i hx; rw [if_pos hx] at hc; exact absurd rfl hc
          · rfl
        have hdb : inDoubt env es = false := by
          by_contra hx
          rw [if_pos (by simpa using hx)] at hst
          exact hc hst
        have hb : S.s.m.boot env opts tree ts w = { log := out.log, up := true, fd := true, env := env, opts := opts, status := out.status, senderIp := out.senderIp, claims := out.infos } := by
          unfold LogMgr.boot; rw [if_neg hpre, hp]; simp only [if_neg hi, if_neg hc, hdt, and_false, if_false, Bool.false_eq_true]
        rw [hb]
        have hs := hsay hok
        refine DirInv.up rfl hl' ?_
        constructor
        · intro l hl; rw [List.eq_nil_of_prefix_nil hl, List.append_nil]; exact hh'
        · intro l hl; rw [List.eq_nil_of_prefix_nil hl, List.append_nil]; exact ho'
        · intro _ _ x hx
          obtain ⟨size, ranges, hlive, d1, d2, d3, hcov, hbd⟩ := hs.sound x hx
          obtain ⟨τ, l1, l2, l3⟩ := live_last hq hlive
          refine ⟨τ, ?_, l2, l3, fun hx => (by cases hx), ?_, ?_⟩
          · rw [lastHdr_plain _ _ (fun e he => (hlost e he).1)]; exact l1
          · have hne : S.files x.fileName ≠ none := by
              intro hx
              rw [hdisk, DirSys.sizes, hx] at d1; cases d1
            obtain ⟨c, b, q1, q2, q3, q4⟩ := hh env _ _ _ _ hlive τ l1 hne
            exact ⟨c, b, q1, q2, q3, fun p hp => q4 p ((hcov p).1 hp)⟩
          · rw [← d1, hdisk]; rfl
        · intro _ x hx y hy hxy
          obtain ⟨_, _, hlx, _⟩ := hs.sound x hx
          obtain ⟨_, _, hly, _⟩ := hs.sound y hy
          refine asc_unique hs.ascending hx hy ?_
          rcases hxy with hxy | hxy
          · rw [hxy] at hlx
            exact ho env _ _ _ _ _ _ _ hlx hly
          · exact hxy
        · intro _ _ env' i n sz r hlive
          obtain ⟨τ, l1, l2, l3⟩ := live_last hq (live_quiets hlost hlive).1
          have hids : τ.rid = env.recoveryId ∧ τ.cfg = env.config := by
            by_contra hx
            have := inDoubt_of_hdr l1 hx
            rw [hdb] at this; cases this
          exact parse_listed hpo hnow' hl hp hok hl' (live_ids (by rw [← l2, hids.1]) (by rw [← l3, hids.2]) hlive)
        · intro hx; cases hx
        · intro hx; cases hx
        · intro _; exact ⟨rfl, rfl, rfl, rfl⟩
        · intro y hy; cases hy
        · intro _ _ y hy; cases hy
        · intro hx; cases hx
        · intro y hy; cases hy
        · intro y hy; cases hy
        · intro y hy; cases hy
        · exact hdt


theorem Tag.src_eq {src : Tag → Bytes → Option Bytes} {v : Bool} (hsrc : ∀ τ τ', Tag.same v τ τ' → src τ = src τ') {τ τ' : Tag}
    (h : τ.same v τ') (n : Bytes) : src τ n = src τ' n := by rw [hsrc τ τ' h]

theorem dir_connect {src : Tag → Bytes → Option Bytes} {v : Bool} {S : DirSys} (hu : S.s.m.up = true)
    {es0 es1 : List LogEntry} {t : Bytes} {tr0 tr1 : List TItem}
    (h : Up v true S.s es0 es1 t tr0 tr1) (hf : Run src v S (es0 ++ es1)) (ip : Bytes) (res : Bool) (ts : Int) (w wc : Nat)
    (ha : S.s.Allowed (.connect ip res ts w wc)) : DirInv src v (S.step src (.log (.connect ip res ts w wc))) := by
  obtain ⟨_, hc, hip, hlen, hts⟩ := ha
  obtain ⟨i1, i2, i3, i4⟩ := h.idle hc
  obtain ⟨f1, f2, f3⟩ := h.fresh i2
  obtain ⟨g1, g2, g3, g4⟩ := hf.fresh i2
  have hns : S.s.settled ≠ true := by rw [i2]; decide
  have hs0 : ∃ wr, (if !S.s.m.env.dirTree && S.s.m.status = eOK then { S.s.m with writer := true } else S.s.m) = { S.s.m with writer := wr } := by
    split
    · exact ⟨_, rfl⟩
    · exact ⟨S.s.m.writer, rfl⟩
  obtain ⟨wr, hs0⟩ := hs0
  have hn0 : Honest src S.files S.safe (es0 ++ es1) := by simpa using hf.hon [] List.nil_prefix
  have ho0 : OneName (es0 ++ es1) := by simpa using hf.one [] List.nil_prefix
  simp only [DirSys.step, LogSys.step]
  by_cases hfd : S.s.m.fd = true
  · have ht := h.torn hfd (Or.inr (Or.inl i2))
    subst ht
    by_cases hb : (!S.s.m.opts.verifyOff && S.s.m.senderIp ≠ [] && S.s.m.senderIp ≠ ip) = true
    · obtain ⟨e1, e2⟩ := invalidate_eq (m := { S.s.m with writer := wr }) hfd f1 ts w wc
      obtain ⟨w1, w2⟩ := write_entry h.log (show (LogEntry.dirInvalidation ts).InRange from hts) w
      by_cases hw : fullWrite (.dirInvalidation ts) w = true
      · have hm : S.s.m.connect ip ts w wc = { S.s.m with writer := wr, status := eINCONSISTENT_DIRECTORY, log := S.s.m.log ++ (recBytes (.dirInvalidation ts)).take w, senderIp := ip, claims := [] } := by
          unfold LogMgr.connect
          simp only [hs0]
          rw [if_pos hfd, if_pos hb, e1 hw]
          simp only [hu, if_true]
        rw [hm]
        refine DirInv.up hu (w1 hw) ?_
        constructor
        · intro l hl
          simp only [f1] at hl
          rw [List.eq_nil_of_prefix_nil hl, List.append_nil]; exact Honest.dir _ _
        · intro l hl
          simp only [f1] at hl
          rw [List.eq_nil_of_prefix_nil hl, List.append_nil]; exact OneName.dir _ _
        · intro _ _ x hx; cases hx
        · intro _ x hx; cases hx
        · intro _ _ env i n sz r hlive; exact absurd hlive no_live_dir
        · intro hx; exact absurd hx hns
        · intro hx
          simp only [f2] at hx; cases hx
        · intro _; exact ⟨g1, g2, g3, g4⟩
        · intro y hy; simp only [g1] at hy; cases hy
        · intro x hx y hy; simp only [g1] at hy; cases hy
        · intro hx; exact absurd hx hns
        · intro y hy; simp only [g1] at hy; cases hy
        · intro y hy; simp only [g3] at hy; cases hy
        · intro y hy; simp only [g4] at hy; cases hy
        · exact hf.dt
      · obtain ⟨d1, d2⟩ := e2 (by simpa using hw)
        obtain ⟨t', hl'⟩ := w2 (by simpa using hw)
        have hm : S.s.m.connect ip ts w wc = LogMgr.invalidateDirectory ts w wc { S.s.m with writer := wr } := by
          unfold LogMgr.connect
          simp only [hs0]
          rw [if_pos hfd, if_pos hb, if_neg (by rw [d2]; decide)]
        rw [hm]
        exact DirInv.down d2 (by simp only [d1]; exact hl') hn0 ho0
    · have hm : S.s.m.connect ip ts w wc = { S.s.m with writer := wr, senderIp := ip } := by
        unfold LogMgr.connect
        simp only [hs0]
        rw [if_pos hfd, if_neg hb]
      rw [hm]
      refine DirInv.up hu h.log ?_
      constructor
      · exact hf.hon
      · exact hf.one
      · intro k1 k2 x hx
        obtain ⟨τ, l1, l2, l3, _, l5, l6⟩ := hf.cl k1 k2 x hx
        refine ⟨τ, l1, l2, l3, fun _ hv => ?_, l5, l6⟩
        have hes1 : lastHdr es1 = none := lastHdr_none (fun ts w r s c hm => by
          obtain ⟨_, hx⟩ := f3 _ hm; cases hx)
        rw [lastHdr_append, hes1] at l1
        have hτ0 : lastHdr es0 = some τ := l1
        have hsi := i4 hfd
        rw [hτ0] at hsi
        have hsi' : S.s.m.senderIp = τ.ip := hsi
        have hne : τ.ip ≠ [] := by
          obtain ⟨ts', w', hin⟩ := lastHdr_mem hτ0
          exact (h.hdrOk _ _ _ _ _ (List.mem_append_left _ hin)).1
        show τ.ip = ip
        by_contra hcon
        apply hb
        rw [h.ver hv, hsi']
        simp [hne, hcon]
      · exact hf.cu
      · exact hf.kn0
      · intro hx; exact absurd hx hns
      · exact hf.top
      · intro _; exact ⟨g1, g2, g3, g4⟩
      · exact hf.t1
      · intro x hx y hy; simp only [g1] at hy; cases hy
      · intro hx; exact absurd hx hns
      · intro y hy; simp only [g1] at hy; cases hy
      · intro y hy; simp only [g3] at hy; cases hy
      · exact hf.go
      · exact hf.dt
  · have hus : S.s.usable ≠ true := fun hx => hfd (h.opened hx i2)
    have hm : S.s.m.connect ip ts w wc = { S.s.m with writer := wr, claims := [] } := by
      unfold LogMgr.connect
      simp only [hs0]
      rw [if_neg hfd]
    rw [hm]
    refine DirInv.up hu h.log ?_
    constructor
    · exact hf.hon
    · exact hf.one
    · intro _ hx; exact absurd hx hus
    · intro hx; exact absurd hx hus
    · intro _ hx; exact absurd hx hus
    · intro hx; exact absurd hx hns
    · exact hf.top
    · intro _; exact ⟨g1, g2, g3, g4⟩
    · exact hf.t1
    · intro x hx y hy; simp only [g1] at hy; cases hy
    · intro hx; exact absurd hx hns
    · intro y hy; simp only [g1] at hy; cases hy
    · intro y hy; simp only [g3] at hy; cases hy
    · exact hf.go
    · exact hf.dt

theorem dir_settle {src : Tag → Bytes → Option Bytes} {v : Bool} (hsrc : ∀ τ τ', Tag.same v τ τ' → src τ = src τ')
    {S : DirSys} (hfit : ∀ k x, S.fits k x = true) (hu : S.s.m.up = true)
    {es0 es1 : List LogEntry} {t : Bytes} {tr0 tr1 : List TItem}
    (h : Up v true S.s es0 es1 t tr0 tr1) (hf : Run src v S (es0 ++ es1)) (bm : Bool) (ts1 ts2 : Int) (w1 w2 wc : Nat)
    (ha : S.s.Allowed (.settle bm ts1 ts2 w1 w2 wc)) : DirInv src v (S.step src (.log (.settle bm ts1 ts2 w1 w2 wc))) := by
  obtain ⟨_, hc, hset, hts1, hts2⟩ := ha
  obtain ⟨f1, f2, f3⟩ := h.fresh hset
  obtain ⟨g1, g2, g3, g4⟩ := hf.fresh hset
  have hn0 : Honest src S.files S.safe (es0 ++ es1) := by simpa using hf.hon [] List.nil_prefix
  have ho0 : OneName (es0 ++ es1) := by simpa using hf.one [] List.nil_prefix
  have hwr : ∀ m : LogMgr, m.env = S.s.m.env → m.senderIp = S.s.m.senderIp → S.s.m.fd = true →
      (LogEntry.header ts2 WLOG_VERSION m.env.recoveryId m.senderIp m.env.config).InRange := by
    intro m h1 h2 hfd
    obtain ⟨c1, c2, c3⟩ := h.conn hc hfd
    rw [h1, h2, c1]
    exact ⟨hts2, (by constructor <;> decide), h.cfg.1, c3⟩
  simp only [DirSys.step, LogSys.step]
  by_cases hfd : S.s.m.fd = true
  · have hus : S.s.usable = true := by
      by_contra hx
      have := (h.unusable (by simpa using hx)).1
      rw [hfd] at this; cases this
    have ht := h.torn hfd (Or.inr (Or.inl hset))
    subst ht
    obtain ⟨c1, c2, c3⟩ := h.conn hc hfd
    by_cases hres : S.s.resuming = true
    · have hm : S.s.m.logHeader bm S.s.resuming ts1 ts2 w1 w2 wc = S.s.m.writeLogHeader ts2 w2 wc := by
        unfold LogMgr.logHeader
        simp [hres, hf.dt, hu]
      rw [hm]
      obtain ⟨e1, e2⟩ := header_eq hfd f1 ts2 w2 wc
      obtain ⟨k1, k2⟩ := write_entry h.log (hwr S.s.m rfl rfl hfd) w2
      -- what holds with and without the header
      have main : ∀ (m : LogMgr) (E : List LogEntry) (t' : Bytes), m.up = true → m.env = S.s.m.env → m.claims = S.s.m.claims → m.pending = [] →
          LogIs m.log E t' → (∀ env i n sz r, Live env E i n sz r → Live env (es0 ++ es1) i n sz r) →
          (lastHdr E = lastHdr (es0 ++ es1) ∨ lastHdr E = some S.s.tag) → (m.headerWritten = true → inDoubt S.s.m.env E = false) →
          DirInv src v { S with s := { S.s with m := m, settled := true } } := by
        intro m E t' m1 m2 m3 m4 m5 m6 m7 m8
        have hhon : Honest src S.files S.safe E := by
          intro env i n sz r hlive τ hτ hne
          have hl0 := m6 _ _ _ _ _ hlive
          obtain ⟨τ0, q1, q2⟩ := live_tag h hus hc (l := []) (List.nil_sublist _) (by simpa using hl0)
          rw [List.append_nil] at q1
          have := hn0 env i n sz r hl0 τ0 q1 hne
          rcases m7 with m7 | m7
          · rw [m7, q1] at hτ
            cases hτ; exact this
          · rw [m7] at hτ
            cases hτ
            rw [← Tag.src_eq hsrc q2]; exact this
        have hlisted : ({ S with s := { S.s with m := m, settled := true } } : DirSys).listed = S.s.m.claims := by
          simp only [DirSys.listed, hres, if_true, m3]
          exact List.filter_eq_self.2 (fun x _ => hfit _ x)
        refine DirInv.up m1 m5 ?_
        constructor
        · intro l hl
          simp only [m4] at hl
          rw [List.eq_nil_of_prefix_nil hl, List.append_nil]; exact hhon
        · intro l hl
          simp only [m4] at hl
          rw [List.eq_nil_of_prefix_nil hl, List.append_nil]
          exact fun env i i' n sz sz' r r' q1 q2 => ho0 env i i' n sz sz' r r' (m6 _ _ _ _ _ q1) (m6 _ _ _ _ _ q2)
        · intro hx; cases hx
        · intro _; simp only [m3]; exact hf.cu hus
        · intro hx; cases hx
        · intro _ _ l hl env i n sz r hlive
          simp only [m4] at hl
          rw [List.eq_nil_of_prefix_nil hl, List.append_nil] at hlive
          refine Or.inl ?_
          rw [hlisted]
          exact hf.kn0 hset hus _ _ _ _ _ (m6 _ _ _ _ _ hlive)
        · intro hx; simp only [m2]; exact m8 hx
        · intro hx; cases hx
        · exact hf.t1
        · intro x hx y hy; simp only [g1] at hy; cases hy
        · intro _ _ x hx _
          rw [hlisted] at hx
          obtain ⟨τ, l1, l2, l3, l4, l5, l6⟩ := hf.cl hset hus x hx
          refine ⟨?_, fun _ => l6⟩
          have hs : τ.same v S.s.tag := ⟨l2, l3, fun hv => l4 hc hv⟩
          have : ({ S with s := { S.s with m := m, settled := true } } : DirSys).s.tag = S.s.tag := by
            simp only [LogSys.tag, m2]
          rw [this, ← Tag.src_eq hsrc hs]; exact l5
        · intro y hy; simp only [g1] at hy; cases hy
        · intro y hy; simp only [g3] at hy; cases hy
        · intro y hy; simp only [g4] at hy; cases hy
        · simp only [m2]; exact hf.dt
      by_cases hfw : fullWrite (.header ts2 WLOG_VERSION S.s.m.env.recoveryId S.s.m.senderIp S.s.m.env.config) w2 = true
      · rw [e1 hfw]
        refine main _ _ [] hu rfl rfl f1 (k1 hfw) (fun env i n sz r hl => (live_header hl).1) (Or.inr ?_) (fun _ => ?_)
        · rw [lastHdr_append, c1]; rfl
        · rw [inDoubt_snoc]; simp [LogEntry.resets, LogEntry.confirms]
      · rw [e2 (by simpa using hfw)]
        obtain ⟨t', hl'⟩ := k2 (by simpa using hfw)
        refine main _ _ t' hu rfl rfl f1 hl' (fun env i n sz r hl => hl) (Or.inl rfl) (fun hx => ?_)
        simp only [f2] at hx; cases hx
    · have hres' : S.s.resuming = false := by simpa using hres
      obtain ⟨e1, e2⟩ := invalidate_eq hfd f1 ts1 w1 wc
      obtain ⟨k1, k2⟩ := write_entry h.log (show (LogEntry.dirInvalidation ts1).InRange from hts1) w1
      by_cases hw : fullWrite (.dirInvalidation ts1) w1 = true
      · have hm : S.s.m.logHeader bm S.s.resuming ts1 ts2 w1 w2 wc = LogMgr.writeLogHeader ts2 w2 wc { S.s.m with status := eINCONSISTENT_DIRECTORY, log := S.s.m.log ++ (recBytes (.dirInvalidation ts1)).take w1 } := by
          unfold LogMgr.logHeader
          simp [hres', hf.dt, hu, e1 hw]
        rw [hm]
        obtain ⟨e3, e4⟩ := header_eq (m := { S.s.m with status := eINCONSISTENT_DIRECTORY, log := S.s.m.log ++ (recBytes (.dirInvalidation ts1)).take w1 }) hfd f1 ts2 w2 wc
        obtain ⟨k3, k4⟩ := write_entry (k1 hw) (hwr S.s.m rfl rfl hfd) w2
        have main : ∀ (m : LogMgr) (E : List LogEntry) (t' : Bytes), m.up = true → m.env = S.s.m.env → m.claims = S.s.m.claims → m.pending = [] →
            LogIs m.log E t' → (∀ env i n sz r, ¬ Live env E i n sz r) → (m.headerWritten = true → inDoubt S.s.m.env E = false) →
            DirInv src v { S with s := { S.s with m := m, settled := true } } := by
          intro m E t' m1 m2 m3 m4 m5 m6 m8
          have hlisted : ({ S with s := { S.s with m := m, settled := true } } : DirSys).listed = [] := by
            simp [DirSys.listed, hres']
          refine DirInv.up m1 m5 ?_
          constructor
          · intro l hl
            simp only [m4] at hl
            rw [List.eq_nil_of_prefix_nil hl, List.append_nil]
            intro env i n sz r hlive; exact absurd hlive (m6 _ _ _ _ _)
          · intro l hl
            simp only [m4] at hl
            rw [List.eq_nil_of_prefix_nil hl, List.append_nil]
            intro env i i' n sz sz' r r' hlive; exact absurd hlive (m6 _ _ _ _ _)
          · intro hx; cases hx
          · intro _; simp only [m3]; exact hf.cu hus
          · intro hx; cases hx
          · intro _ _ l hl env i n sz r hlive
            simp only [m4] at hl
            rw [List.eq_nil_of_prefix_nil hl, List.append_nil] at hlive
            exact absurd hlive (m6 _ _ _ _ _)
          · intro hx; simp only [m2]; exact m8 hx
          · intro hx; cases hx
          · exact hf.t1
          · intro x hx y hy; simp only [g1] at hy; cases hy
          · intro _ _ x hx _
            rw [hlisted] at hx; cases hx
          · intro y hy; simp only [g1] at hy; cases hy
          · intro y hy; simp only [g3] at hy; cases hy
          · intro y hy; simp only [g4] at hy; cases hy
          · simp only [m2]; exact hf.dt
        by_cases hfw : fullWrite (.header ts2 WLOG_VERSION S.s.m.env.recoveryId S.s.m.senderIp S.s.m.env.config) w2 = true
        · rw [e3 hfw]
          refine main _ _ [] hu rfl rfl f1 (k3 hfw) (fun env i n sz r hl => no_live_dir (live_header hl).1) (fun _ => ?_)
          rw [inDoubt_snoc]; simp [LogEntry.resets, LogEntry.confirms]
        · rw [e4 (by simpa using hfw)]
          obtain ⟨t', hl'⟩ := k4 (by simpa using hfw)
          refine main _ _ t' hu rfl rfl f1 hl' (fun env i n sz r => no_live_dir) (fun hx => ?_)
          simp only [f2] at hx; cases hx
      · obtain ⟨d1, d2⟩ := e2 (by simpa using hw)
        obtain ⟨t', hl'⟩ := k2 (by simpa using hw)
        have hm : S.s.m.logHeader bm S.s.resuming ts1 ts2 w1 w2 wc = S.s.m.invalidateDirectory ts1 w1 wc := by
          unfold LogMgr.logHeader
          simp [hres', d2]
        rw [hm]
        exact DirInv.down d2 (by simp only [d1]; exact hl') hn0 ho0
  · have hus : S.s.usable ≠ true := fun hx => hfd (h.opened hx hset)
    have hm : S.s.m.logHeader bm S.s.resuming ts1 ts2 w1 w2 wc = S.s.m := by
      unfold LogMgr.logHeader LogMgr.invalidateDirectory LogMgr.writeLogHeader
      simp [hfd, hu]
    rw [hm]
    refine DirInv.up hu h.log ?_
    constructor
    · exact hf.hon
    · exact hf.one
    · intro _ hx; exact absurd hx hus
    · intro hx; exact absurd hx hus
    · intro _ hx; exact absurd hx hus
    · intro _ hx; exact absurd hx hus
    · exact hf.top
    · intro hx; cases hx
    · exact hf.t1
    · intro x hx y hy; simp only [g1] at hy; cases hy
    · intro _ hx; exact absurd hx hus
    · intro y hy; simp only [g1] at hy; cases hy
    · intro y hy; simp only [g3] at hy; cases hy
    · exact hf.go
    · exact hf.dt

/-- A round of the writer thread writes the first of the pending entries. -/
theorem dir_flush_log {v g : Bool} {s : LogSys} {es0 es1 : List LogEntry} {t : Bytes} {tr0 tr1 : List TItem}
    (h : Up v g s es0 es1 t tr0 tr1) (w : Nat) :
    ∃ l t', LogIs (s.m.flush w).log (es0 ++ es1 ++ l) t' ∧ l <+: s.m.pending ∧
      ((s.m.flush w).pending = [] ∨ (l = [] ∧ (s.m.flush w).pending = s.m.pending)) := by
  by_cases hwr : s.m.writer = true
  · obtain ⟨hfd, hdt⟩ := h.wfd hwr
    have ht := h.torn hfd (Or.inl hwr)
    subst ht
    obtain ⟨m, t', h1, _, _⟩ := write_entries h.log (fun e he => (h.pend e he).1) w
    refine ⟨s.m.pending.take m, t', ?_, List.take_prefix .., Or.inl ?_⟩
    · unfold LogMgr.flush; rw [if_pos hwr]; exact h1
    · unfold LogMgr.flush; rw [if_pos hwr]
  · refine ⟨[], t, ?_, List.nil_prefix, Or.inr ⟨rfl, ?_⟩⟩
    · unfold LogMgr.flush; rw [if_neg hwr, List.append_nil]; exact h.log
    · unfold LogMgr.flush; rw [if_neg hwr]

theorem flush_same (m : LogMgr) (w : Nat) : (m.flush w).fd = m.fd ∧ (m.flush w).env = m.env ∧
    (m.flush w).claims = m.claims ∧ (m.flush w).up = m.up ∧ (m.flush w).headerWritten = m.headerWritten ∧ (m.flush w).senderIp = m.senderIp := by
  unfold LogMgr.flush; split <;> exact ⟨rfl, rfl, rfl, rfl, rfl, rfl⟩

theorem dir_flush_run {src : Tag → Bytes → Option Bytes} {v : Bool} {S : DirSys}
    {es0 es1 : List LogEntry} {t : Bytes} {tr0 tr1 : List TItem}
    (h : Up v true S.s es0 es1 t tr0 tr1) (hf : Run src v S (es0 ++ es1)) (w : Nat) :
    ∃ l t', LogIs (S.s.m.flush w).log (es0 ++ es1 ++ l) t' ∧
      Run src v { S with s := { S.s with m := S.s.m.flush w } } (es0 ++ es1 ++ l) := by
  obtain ⟨l, t', h1, h2, h3⟩ := dir_flush_log h w
  obtain ⟨m1, m2, m3, m4, m5, _⟩ := flush_same S.s.m w
  have hpl : ∀ e ∈ l, e.plain = true := fun e he => (h.pend e (h2.subset he)).2
  have hpre : ∀ l', l' <+: (S.s.m.flush w).pending → l ++ l' <+: S.s.m.pending := by
    intro l' hl'
    rcases h3 with h3 | ⟨rfl, h3⟩
    · rw [h3] at hl'
      rw [List.eq_nil_of_prefix_nil hl', List.append_nil]; exact h2
    · rw [h3] at hl'; simpa using hl'
  have hl0 : S.s.settled = false → l = [] := by
    intro hx
    have := (h.fresh hx).1
    rw [this] at h2
    exact List.eq_nil_of_prefix_nil h2
  have htag : ({ S with s := { S.s with m := S.s.m.flush w } } : DirSys).s.tag = S.s.tag := by
    simp only [LogSys.tag, m2]
  have hlisted : ({ S with s := { S.s with m := S.s.m.flush w } } : DirSys).listed = S.listed := by
    simp only [DirSys.listed, m3]
  refine ⟨l, t', h1, ?_⟩
  constructor
  · intro l' hl'
    rw [List.append_assoc]; exact hf.hon _ (hpre l' hl')
  · intro l' hl'
    rw [List.append_assoc]; exact hf.one _ (hpre l' hl')
  · intro k1 k2 x hx
    simp only [m3] at hx
    rw [hl0 k1, List.append_nil]
    simp only [m2]
    exact hf.cl k1 k2 x hx
  · intro k1; simp only [m3]; exact hf.cu k1
  · intro k1 k2 env i n sz r hlive
    rw [hl0 k1, List.append_nil] at hlive
    simp only [m3]
    exact hf.kn0 k1 k2 env i n sz r hlive
  · intro k1 k2 l' hl' env i n sz r hlive
    rw [List.append_assoc] at hlive
    have := hf.kn k1 k2 _ (hpre l' hl') env i n sz r hlive
    unfold DirSys.Known at this ⊢
    rw [hlisted]; exact this
  · intro k1
    simp only [m5] at k1
    simp only [m2]
    rw [inDoubt_plain _ _ _ hpl]; exact hf.top k1
  · exact hf.fresh
  · exact hf.t1
  · rw [hlisted]; exact hf.t2
  · rw [hlisted, htag]; exact hf.kp
  · rw [htag]; exact hf.rd
  · rw [htag]; exact hf.wr
  · exact hf.go
  · simp only [m2]; exact hf.dt

theorem dir_flush {src : Tag → Bytes → Option Bytes} {v : Bool} {S : DirSys} (hu : S.s.m.up = true)
    {es0 es1 : List LogEntry} {t : Bytes} {tr0 tr1 : List TItem}
    (h : Up v true S.s es0 es1 t tr0 tr1) (hf : Run src v S (es0 ++ es1)) (w : Nat) :
    DirInv src v (S.step src (.log (.flush w))) := by
  obtain ⟨l, t', h1, h2⟩ := dir_flush_run h hf w
  simp only [DirSys.step, LogSys.step]
  exact DirInv.up ((flush_same S.s.m w).2.2.2.1.trans hu) h1 h2

end Wdt
