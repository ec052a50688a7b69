import Verif.Props.Resume
/-
Property C88: what was recorded as received survives a loss of power.

A loss of power (`DirOp.power`) may happen at any moment.  It removes files, shortens them and
changes any of their bytes, except those that were flushed to the device by `fsync` and not
changed since.  Histories are those of C87.
-/
namespace Wdt

/-- What a loss of power may leave of the files. -/
def DirSys.MayLeave (S : DirSys) (f : Bytes → Option Bytes) : Prop :=
  ∀ n c', f n = some c' → ∃ c, S.files n = some c ∧ c'.length ≤ c.length ∧ ∀ p, p < c.length → S.safe n p = true → c'[p]? = c[p]?

/-- C88, a resumed transfer: in any history power is lost while a receiver process runs; the next
process starts with what is left of the files, and a sender connects to resume.  Whatever the
receiver lists is there: the files hold the bytes of the source wherever it says so, although
they may have lost anything that was not flushed.  Missing: as in C87. -/
theorem C88_offered_partial (src : Tag → Bytes → Option Bytes) (v : Bool) (hsrc : ∀ τ τ', Tag.same v τ τ' → src τ = src τ')
    (S : DirSys) (h : DirReach src v true S) (hfit : ∀ k x, S.fits k x = true) (hu : S.s.m.up = true)
    (f : Bytes → Option Bytes) (hf : S.MayLeave f) (env : LogEnv) (opts : LogOpts) (tree : List FileChunksInfo) (ts ts' : Int) (w w' wc : Nat)
    (ip : Bytes) (T : DirSys) (hT : T = S.run src [.log .kill, .power f, .log (.boot env opts tree ts w), .log (.connect ip true ts' w' wc)])
    (hb : ((S.run src [.log .kill, .power f]).Ok src v true (.log (.boot env opts tree ts w))))
    (hc : ((S.run src [.log .kill, .power f, .log (.boot env opts tree ts w)]).Ok src v true (.log (.connect ip true ts' w' wc))))
    (hup : T.s.m.up = true) (hus : T.s.usable = true) (x : FileChunksInfo) (hx : x ∈ T.listed) :
    ∃ c b, f x.fileName = some c ∧ src T.s.tag x.fileName = some b ∧ x.fileSize = c.length ∧ c.length ≤ b.length ∧
      ∀ p : Nat, Covered x.chunks p → p < c.length ∧ c[p]? = b[p]? := by
  have h1 : DirReach src v true (S.step src (.log .kill)) := .step _ h ⟨hu, trivial⟩
  have h2 : DirReach src v true ((S.step src (.log .kill)).step src (.power f)) := .step _ h1 ⟨rfl, hf⟩
  have h3 := DirReach.step (.log (.boot env opts tree ts w)) h2 hb
  have h4 := DirReach.step (.log (.connect ip true ts' w' wc)) h3 hc
  have hT' : T = (((S.step src (.log .kill)).step src (.power f)).step src (.log (.boot env opts tree ts w))).step src (.log (.connect ip true ts' w' wc)) := hT
  rw [← hT'] at h4
  have hfits : T.fits = S.fits := by rw [hT']; rfl
  have hgone : T.gone = [] := by rw [hT']; rfl
  have hop : T.opened = [] := by rw [hT']; rfl
  have hconn : T.s.connected = true := by rw [hT']; rfl
  have hfiles : T.files = f := by rw [hT']; rfl
  obtain ⟨⟨c, b, k1, k2, k3, k4, k5⟩, _⟩ :=
    C87_offered_partial src v hsrc T h4 (by rw [hfits]; exact hfit) hup hconn hus x hx (by rw [hgone]; simp)
  rw [hfiles] at k1
  exact ⟨c, b, k1, k2, k4 (by rw [hop]; simp), k3, k5⟩

/-- The file is complete, and all of it is on the device. -/
def DirSys.Stored (S : DirSys) (n b : Bytes) : Prop := S.files n = some b ∧ ∀ p, p < b.length → S.safe n p = true

theorem still_same {sf : Nat → Bool} {f : Option Bytes} {p : Nat} : still sf f f p = sf p := by simp [still]

/-- Bytes of the source written into a file that equals it change nothing. -/
theorem write_same {b : Bytes} {off len : Nat} (h0 : 0 < len) (hl : off + len ≤ b.length) : fileWrite b off (part b off len) = b := by
  obtain ⟨h1, h2, h3⟩ := write_source (c := b) h0 hl
  refine List.ext_getElem? fun p => ?_
  by_cases hp : off ≤ p ∧ p < off + len
  · exact h2 p hp.1 hp.2
  · by_cases hlt : p < b.length
    · rw [List.getElem?_eq_getElem hlt]
      exact h3 p _ (List.getElem?_eq_getElem hlt) hp
    · rw [List.getElem?_eq_none (by omega), List.getElem?_eq_none (by omega)]

/-! ### The session stays what it is -/

theorem flush_env (m : LogMgr) (w : Nat) : (m.flush w).env = m.env := by unfold LogMgr.flush; split <;> rfl

theorem closeLog_env (m : LogMgr) (w : Nat) : (m.closeLog w).env = m.env := by
  unfold LogMgr.closeLog
  split
  · simp only
    split
    · rfl
    · exact flush_env m w
  · rfl

theorem invalidateDirectory_env (m : LogMgr) (ts : Int) (w wc : Nat) : (m.invalidateDirectory ts w wc).env = m.env := by
  unfold LogMgr.invalidateDirectory
  split
  · simp only
    split
    · rfl
    · simp only [LogMgr.abort, closeLog_env]
  · rfl

theorem writeLogHeader_env (m : LogMgr) (ts : Int) (w wc : Nat) : (m.writeLogHeader ts w wc).env = m.env := by
  unfold LogMgr.writeLogHeader
  split
  · simp only
    split
    · rfl
    · simp only [closeLog_env]
  · rfl

theorem add_env (m : LogMgr) (e : LogEntry) : (m.add e).env = m.env := by
  unfold LogMgr.add
  simp only
  (repeat' split) <;> rfl

theorem adds_env (l : List LogEntry) : ∀ m : LogMgr, (l.foldl (fun m e => if m.up then m.add e else m) m).env = m.env := by
  induction l with
  | nil => intro m; rfl
  | cons e l ih =>
    intro m
    rw [List.foldl_cons, ih]
    split
    · exact add_env m e
    · rfl

theorem compactNow_env (m : LogMgr) (disk : Bytes → Option Int) (tr ap : Bool) (now : Int) (w1 w2 w3 : Nat) :
    (m.compactNow disk tr ap now w1 w2 w3).env = m.env := by
  unfold LogMgr.compactNow
  split
  · simp only
    split
    · simp only [LogMgr.abort, flush_env]
    · split
      · simp only [closeLog_env, flush_env]
      · split
        · simp only [invalidateDirectory_env, flush_env]
        · split
          · split
            · split <;> simp only [adds_env, writeLogHeader_env, flush_env]
            · simp only [adds_env, writeLogHeader_env, flush_env]
          · simp only [flush_env]
  · rfl

theorem finish_env (m : LogMgr) (ok : Bool) (disk : Bytes → Option Int) (tr ap : Bool) (now : Int) (wh w1 w2 w3 wc : Nat) :
    (m.finish ok disk tr ap now wh w1 w2 w3 wc).env = m.env := by
  unfold LogMgr.finish
  simp only
  split
  · rfl
  · generalize hs1 : (if (ok && decide (m.status = eINCONSISTENT_DIRECTORY)) = true then m.writeLogHeader now wh 0 else m) = s1
    have h1 : s1.env = m.env := by
      rw [← hs1]; split
      · exact writeLogHeader_env ..
      · rfl
    generalize hs2 : (if (s1.opts.compact && ok && !decide (m.status = eINVALID_LOG) && s1.opts.keepLog && !s1.env.dirTree) = true
      then s1.compactNow disk tr ap now w1 w2 w3 else s1) = s2
    have h2 : s2.env = m.env := by
      rw [← hs2]; split
      · rw [compactNow_env, h1]
      · exact h1
    split
    · split
      · simp only [closeLog_env, h2]
      · simp only [closeLog_env, h2]
    · exact h2

theorem logHeader_env (m : LogMgr) (bm res : Bool) (ts1 ts2 : Int) (w1 w2 wc : Nat) : (m.logHeader bm res ts1 ts2 w1 w2 wc).env = m.env := by
  unfold LogMgr.logHeader
  simp only
  generalize hs1 : (if (!res || (m.env.dirTree && bm)) = true then m.invalidateDirectory ts1 w1 wc else m) = s1
  have h1 : s1.env = m.env := by
    rw [← hs1]; split
    · exact invalidateDirectory_env ..
    · rfl
  split
  · split
    · rw [writeLogHeader_env, h1]
    · exact h1
  · exact h1

theorem entries_tag (l : List LogEntry) : ∀ s : LogSys, (l.foldl (fun s e => s.step (.add e)) s).tag = s.tag ∧
    (l.foldl (fun s e => s.step (.add e)) s).connected = s.connected := by
  induction l with
  | nil => intro s; exact ⟨rfl, rfl⟩
  | cons e l ih =>
    intro s
    rw [List.foldl_cons]
    refine ⟨(ih _).1.trans ?_, (ih _).2⟩
    simp only [LogSys.step, LogSys.tag, add_env]

/-- An operation of the receiver process that runs: no start of another one, nothing done by
somebody else. -/
def DirOp.inside : DirOp → Bool
  | .log (.boot ..) => false
  | .vanish _ => false
  | .power _ => false
  | _ => true

/-- What is complete and stored remains so. -/
theorem dir_stored_step {src : Tag → Bytes → Option Bytes} {v g : Bool} {S : DirSys} {n b : Bytes} (hb : src S.s.tag n = some b)
    (hc : S.s.connected = true) (ho : ∃ y ∈ S.opened, y.2 = n) (hs : S.Stored n b) (op : DirOp) (hok : S.Ok src v g op) (hin : op.inside = true) :
    src (S.step src op).s.tag n = some b ∧ (S.step src op).s.connected = true ∧ (∃ y ∈ (S.step src op).opened, y.2 = n) ∧ (S.step src op).Stored n b := by
  have hother : ∀ m f sf, m ≠ n → setFile S.files m f n = S.files n ∧ setSafe S.safe m sf n = S.safe n := fun m f sf hm =>
    ⟨setFile_other _ _ (Ne.symm hm), setSafe_other _ _ (Ne.symm hm)⟩
  obtain ⟨y, hy1, hy2⟩ := ho
  cases op with
  | log op =>
    cases op with
    | boot => cases hin
    | connect => exact absurd hok.1.2.1 (by rw [hc]; simp)
    | settle =>
      refine ⟨?_, hc, ⟨y, hy1, hy2⟩, hs⟩
      simp only [DirSys.step, LogSys.step, LogSys.tag, logHeader_env]; exact hb
    | add e =>
      refine ⟨?_, hc, ⟨y, hy1, hy2⟩, hs⟩
      simp only [DirSys.step, LogSys.step, LogSys.tag, add_env]; exact hb
    | data => exact ⟨hb, hc, ⟨y, hy1, hy2⟩, hs⟩
    | flush =>
      refine ⟨?_, hc, ⟨y, hy1, hy2⟩, hs⟩
      simp only [DirSys.step, LogSys.step, LogSys.tag, flush_env]; exact hb
    | finish =>
      refine ⟨?_, hc, ⟨y, hy1, hy2⟩, hs⟩
      simp only [DirSys.step, LogSys.step, LogSys.tag, finish_env]; exact hb
    | kill => exact ⟨hb, hc, ⟨y, hy1, hy2⟩, hs⟩
  | size m q =>
    obtain ⟨_, _, ⟨b', _, hop, _⟩, _⟩ := hok
    have hm : m ≠ n := fun h => hop y hy1 (by rw [hy2, h])
    refine ⟨hb, hc, ⟨y, List.mem_append_left _ hy1, hy2⟩, ?_⟩
    exact ⟨(hother m _ (fun _ => false) hm).1.trans hs.1, fun p hp => (congrFun (hother m none _ hm).2 p).trans (hs.2 p hp)⟩
  | fail m q f =>
    obtain ⟨_, _, ⟨b', _, hop, _⟩, _⟩ := hok
    have hm : m ≠ n := fun h => hop y hy1 (by rw [hy2, h])
    refine ⟨hb, hc, ⟨y, hy1, hy2⟩, ?_⟩
    exact ⟨(hother m _ (fun _ => false) hm).1.trans hs.1, fun p hp => (congrFun (hother m none _ hm).2 p).trans (hs.2 p hp)⟩
  | entries ts m q =>
    refine ⟨?_, ?_, ⟨y, hy1, hy2⟩, hs⟩
    · simp only [DirSys.step, (entries_tag _ _).1]; exact hb
    · simp only [DirSys.step, (entries_tag _ _).2]; exact hc
  | write m off len =>
    refine ⟨hb, hc, ⟨y, hy1, hy2⟩, ?_⟩
    by_cases hm : m = n
    · subst hm
      have hsb : S.src src m = b := by simp [DirSys.src, hb]
      obtain ⟨_, _, h0, hl, _⟩ := hok
      rw [hsb] at hl
      simp only [DirSys.step, DirSys.Stored, setFile_same, setSafe_same, hsb, hs.1, Option.map_some, write_same h0 hl, true_and]
      intro p hp
      rw [still_same]; exact hs.2 p hp
    · exact ⟨(hother m _ (fun _ => false) hm).1.trans hs.1, fun p hp => (congrFun (hother m none _ hm).2 p).trans (hs.2 p hp)⟩
  | block ts m q off len =>
    refine ⟨?_, hc, ⟨y, hy1, hy2⟩, hs⟩
    simp only [DirSys.step, LogSys.step, LogSys.tag, add_env]; exact hb
  | unlink m =>
    have hm : m ≠ n := fun h => hok.2.2.1 y hy1 (by rw [hy2, h])
    refine ⟨hb, hc, ⟨y, hy1, hy2⟩, ?_⟩
    exact ⟨(hother m _ (fun _ => false) hm).1.trans hs.1, fun p hp => (congrFun (hother m none _ hm).2 p).trans (hs.2 p hp)⟩
  | vanish => cases hin
  | sync m =>
    refine ⟨hb, hc, ⟨y, hy1, hy2⟩, hs.1, fun p hp => ?_⟩
    simp only [DirSys.step]
    by_cases hm : m = n
    · subst hm; rw [setSafe_same]
    · rw [setSafe_other _ _ (Ne.symm hm)]; exact hs.2 p hp
  | power => cases hin

theorem dir_stored_run {src : Tag → Bytes → Option Bytes} {v g : Bool} {n b : Bytes} (ops : List DirOp) : ∀ {S : DirSys}, src S.s.tag n = some b →
    S.s.connected = true → (∃ y ∈ S.opened, y.2 = n) → S.Stored n b → DirSys.CanRun src v g S ops → (∀ op ∈ ops, op.inside = true) →
    (S.run src ops).Stored n b := by
  induction ops with
  | nil => intro S _ _ _ hs _ _; exact hs
  | cons op ops ih =>
    intro S hb hc ho hs hr hin
    obtain ⟨h1, h2, h3, h4⟩ := dir_stored_step hb hc ho hs op hr.1 (hin op (by simp))
    exact ih h1 h2 h3 h4 hr.2 (fun o hm => hin o (by simp [hm]))

/-- C88, a complete file: when every byte of a file was listed as received before or written in
this session, the `fsync` that follows its last block makes it safe.  Whatever else the process
does afterwards (other files, blocks of this file that come again, the end of the transfer), a
loss of power leaves the file equal to the source, or no file: directories are never flushed.
Missing: as in C87. -/
theorem C88_complete_partial (src : Tag → Bytes → Option Bytes) (v : Bool) (hsrc : ∀ τ τ', Tag.same v τ τ' → src τ = src τ')
    (S : DirSys) (h : DirReach src v true S) (hfit : ∀ k x, S.fits k x = true)
    (hc : S.s.connected = true) (hus : S.s.usable = true) (n b : Bytes) (hb : src S.s.tag n = some b) (hg : n ∉ S.gone)
    (hall : ∀ p : Nat, p < b.length → (∃ x ∈ S.listed, x.fileName = n ∧ Covered x.chunks p) ∨
      ∃ w ∈ S.written, w.1 = n ∧ w.2.1 ≤ p ∧ p < w.2.1 + w.2.2)
    (ops : List DirOp) (hops : DirSys.CanRun src v true S (.sync n :: ops)) (hin : ∀ op ∈ ops, op.inside = true)
    (f : Bytes → Option Bytes) (hf : (S.run src (.sync n :: ops)).MayLeave f) : f n = some b ∨ f n = none := by
  obtain ⟨hu, q, hq, ho⟩ := hops.1
  have heq := C87_equal_partial src v hsrc S h hfit hu hc hus n b hb hg (Or.inr ⟨_, ho, rfl⟩) hall
  have hst : (S.step src (.sync n)).Stored n b := ⟨heq, fun p _ => by simp [DirSys.step, setSafe_same]⟩
  have hrun := dir_stored_run (v := v) (g := true) ops (S := S.step src (.sync n)) hb hc ⟨_, ho, rfl⟩ hst hops.2 hin
  cases hfn : f n with
  | none => exact Or.inr rfl
  | some c' =>
    refine Or.inl ?_
    obtain ⟨c, h1, h2, h3⟩ := hf n c' hfn
    obtain ⟨k1, k2⟩ := hrun
    have : c = b := by
      have h1' : ((S.step src (.sync n)).run src ops).files n = some c := h1
      rw [k1] at h1'; exact (Option.some.inj h1').symm
    subst this
    congr 1
    refine List.ext_getElem? fun p => ?_
    by_cases hp : p < c.length
    · exact h3 p hp (k2 p hp)
    · rw [List.getElem?_eq_none (by omega), List.getElem?_eq_none (by omega)]


/-! ### The hypotheses can be met -/

/-- A session like `resFirst`; in addition 2 bytes of "a" were written and not yet flushed. -/
def powOps : List DirOp :=
  (resFirst fun _ _ => true).take 14 ++ [.write [97] 4 2]

/-- The directory then. -/
def powNow : DirSys := (resInit fun _ _ => true).run resSrc powOps

theorem powNow_reach : DirReach resSrc true true powNow :=
  res_reach (.init _ _ _ _) rfl (ops := powOps.tail) (by decide +kernel)

/-- What the loss of power leaves: the 2 bytes are garbage. -/
def powLeft : Bytes → Option Bytes := fun n =>
  if n = [97] then some [1, 2, 3, 4, 77, 78, 0, 0, 0, 0] else if n = [98] then some [11, 12, 13] else none

theorem powLeft_may : powNow.MayLeave powLeft := by
  intro n c' h
  unfold powLeft at h
  split at h
  · rename_i hn; subst hn; cases h
    refine ⟨[1, 2, 3, 4, 5, 6, 0, 0, 0, 0], by decide +kernel, by decide, ?_⟩
    decide +kernel
  · split at h
    · rename_i hn; subst hn; cases h
      exact ⟨[11, 12, 13], by decide +kernel, by decide, fun _ _ _ => rfl⟩
    · cases h

/-- The operations after the loss. -/
def powAgain : List DirOp := [.log .kill, .power powLeft,
  .log (.boot { recoveryId := [114], config := 1, disk := fun n => (powLeft n).map fun c => (c.length : Int) } {} [] 1 100),
  .log (.connect [105] true 4 100 100)]

/-- The hypotheses of `C88_offered_partial` can be met: of the file that lost two bytes the receiver
still lists four. -/
example : ∃ S f, DirReach resSrc true true S ∧ (∀ k x, S.fits k x = true) ∧ S.s.m.up = true ∧ S.MayLeave f ∧ f [97] ≠ S.files [97] ∧
    DirSys.CanRun resSrc true true S powAgain ∧ (S.run resSrc powAgain).s.m.up = true ∧ (S.run resSrc powAgain).s.usable = true ∧
    (S.run resSrc powAgain).listed = [⟨0, [97], 10, [⟨0, 4⟩]⟩, ⟨1, [98], 3, [⟨0, 3⟩]⟩] := by
  have hup : powNow.s.m.up = true := by decide +kernel
  refine ⟨powNow, powLeft, powNow_reach, fun _ _ => rfl, hup, powLeft_may, by decide +kernel, ?_, by decide +kernel, by decide +kernel, by decide +kernel⟩
  have hd : (powNow.run resSrc [.log .kill, .power powLeft]).s.m.up = false := by decide +kernel
  refine ⟨⟨hup, trivial⟩, ⟨rfl, powLeft_may⟩, ?_, ?_, trivial⟩
  · exact resBoot_ok (S := powNow.run resSrc [.log .kill, .power powLeft]) hd
  · exact okB_ok (by decide +kernel)

/-- Those of `C88_complete_partial` as well: "b" is complete, is flushed and recorded; afterwards a
part of "a" is written.  "b" cannot be anything else then, "a" can. -/
example : ∃ S ops f, DirReach resSrc true true S ∧ (∀ k x, S.fits k x = true) ∧ S.s.connected = true ∧ S.s.usable = true ∧
    resSrc S.s.tag [98] = some [11, 12, 13] ∧ [98] ∉ S.gone ∧ ([98], 0, 3) ∈ S.written ∧
    DirSys.CanRun resSrc true true S (.sync [98] :: ops) ∧ (∀ op ∈ ops, op.inside = true) ∧ (S.run resSrc (.sync [98] :: ops)).MayLeave f ∧
    f [98] = some [11, 12, 13] ∧ f [97] ≠ (S.run resSrc (.sync [98] :: ops)).files [97] := by
  refine ⟨(resInit fun _ _ => true).run resSrc ((resFirst fun _ _ => true).take 11), powOps.drop 12, powLeft,
    res_reach (.init _ _ _ _) rfl (ops := ((resFirst fun _ _ => true).take 11).tail) (by decide +kernel), fun _ _ => rfl, by decide +kernel,
    by decide +kernel, rfl, by decide +kernel, by decide +kernel, runB_ok _ (by decide +kernel), ?_, powLeft_may, rfl, by decide +kernel⟩
  intro op hm
  simp only [powOps, resFirst, List.take, List.drop, List.cons_append, List.nil_append, List.mem_cons, List.not_mem_nil, or_false] at hm
  rcases hm with rfl | rfl | rfl <;> rfl

/-- A file that is deleted by the loss of power is not listed, although the log says that it was
received. -/
example : (powNow.run resSrc [.log .kill, .power fun _ => none,
    .log (.boot { recoveryId := [114], config := 1, disk := fun _ => none } {} [] 1 100), .log (.connect [105] true 4 100 100)]).listed = [] := by
  decide +kernel

/-! ### Flushed before it is recorded -/

/-- C88, the order: with the option `fsync` (the default), or with resumption based on the log
whatever the option says, when the data of a block has been received completely, so that the block
is recorded, or in part, so that the sender sends only the rest, then `fsync` of the file has
succeeded after the last byte of the block was written. -/
theorem C88_flushed_first (w : FWriter) (o : SyncOpts) (ho : o.fsync = true ∨ o.logBased = true) (interval : Int)
    (bufs : List (Bytes × List WAns × Bool)) (fsyncOk fadviseOk closeOk : Bool) (hw : w.fd ≠ none)
    (he : (w.block o interval bufs fsyncOk fadviseOk closeOk).2 ≠ .gaveUp) :
    fsyncOk = true ∧ (w.block o interval bufs fsyncOk fadviseOk closeOk).1 =
      (w.writes interval bufs).calls.map BEv.wrote ++ [.fsynced, .closed] := by
  have hfd : ∀ (bufs : List (Bytes × List WAns × Bool)) (w : FWriter), w.fd ≠ none → (w.writes interval bufs).w.fd ≠ none := by
    intro bufs
    induction bufs with
    | nil => intro w h; exact h
    | cons x rest ih =>
      obtain ⟨data, answers, ok⟩ := x
      intro w h
      have h1 : (w.write interval data answers ok).w.fd ≠ none := by
        obtain ⟨pos, hp⟩ := Option.ne_none_iff_exists'.1 h
        unfold FWriter.write
        rw [hp]
        simp only
        split
        · split
          · simp only [FWriter.syncRange]; (repeat' split) <;> simp
          · simp only [FWriter.syncRange]; (repeat' split) <;> simp
        · simp
      unfold FWriter.writes
      simp only
      split
      · exact ih _ h1
      · exact h1
  have hfd := hfd bufs w hw
  obtain ⟨pos, hpos⟩ := Option.ne_none_iff_exists'.1 hfd
  have hoo : (o.fsync || o.logBased) = true := by simpa using ho
  unfold FWriter.block at he ⊢
  simp only [FWriter.sync, FWriter.close, hpos, hoo, Bool.true_and] at he ⊢
  by_cases h1 : (w.writes interval bufs).res = .ok
  · simp only [h1, ne_eq, not_true_eq_false, if_false] at he ⊢
    cases fsyncOk
    · simp at he
    · refine ⟨rfl, ?_⟩
      simp only [Bool.not_true, Bool.false_eq_true, if_false] at he ⊢
      by_cases h2 : (!o.skipFadvise && !fadviseOk) = true
      · simp [h2] at he
      · simp only [h2] at he ⊢
        cases closeOk
        · simp at he
        · simp only [Bool.false_eq_true, if_false, if_true, not_true_eq_false]
          split <;> simp
  · simp [h1] at he

/-- The hypotheses of `C88_flushed_first` can be met without the option `fsync`, by a block that is
complete and by one of which a part comes. -/
example : ((FWriter.make 0 3 |>.open true true).1.block { fsync := false, logBased := true } 0 [([1, 2], [.wrote 2], true), ([3], [.wrote 1], true)]
    true true true).2 = .complete ∧
    ((FWriter.make 0 3 |>.open true true).1.block { fsync := false, logBased := true } 0 [([1, 2], [.wrote 2], true)] true true true).2 = .broken := by
  decide +kernel

/-- With neither of the two nothing is flushed. -/
example : ((FWriter.make 0 2 |>.open true true).1.block { fsync := false } 0 [([1, 2], [.wrote 2], true)] true true true) =
    ([.wrote (0, [1, 2]), .closed], .complete) := by decide +kernel

end Wdt
