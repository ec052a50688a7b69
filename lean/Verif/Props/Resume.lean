import Verif.Lemmas.ResumeInv
import Verif.Props.EndToEndFiles
/-
Property C87: a transfer that was interrupted and is resumed ends with files that equal the
source.

A history (`DirReach`) is any sequence of starts of receiver processes over one directory,
connections, files opened and sized, bytes of the source written, blocks recorded, rounds of
the writer of the log, files deleted, ends of transfers (with and without compaction) and
deaths of the process, in which every write to the log may stop after any number of bytes.
-/
namespace Wdt

theorem mergeLoop_self (l : List Interval) : ∀ c, Separated (c :: l) → mergeLoop c l = c :: l := by
  induction l with
  | nil => intro c _; rfl
  | cons d ds ih =>
    intro c h
    unfold Separated at h
    have h1 := List.pairwise_cons.1 h
    have h2 := h1.1 d (by simp)
    unfold mergeLoop
    rw [if_pos h2, ih d h1.2]

/-- A list that is merged already stays as it is. -/
theorem mergeSorted_self {l : List Interval} (h : Separated l) : mergeSorted l = l := by
  cases l with
  | nil => rfl
  | cons c l => exact mergeLoop_self l c h

theorem sorted_self {l : List Interval} (h : Separated l) (hv : Valid l) : IsSortOf l l := by
  refine ⟨List.Perm.refl _, ?_⟩
  exact List.Pairwise.imp_of_mem (fun ha _ hab => by have := hv _ ha; omega) h

/-- What is listed is merged and lies within the file on disk. -/
theorem listed_shape {src : Tag → Bytes → Option Bytes} {v : Bool} {S : DirSys} (h : DirReach src v true S) (hu : S.s.m.up = true)
    (hus : S.s.usable = true) {es : List LogEntry} (hr : Run src v S es) {x : FileChunksInfo} (hx : x ∈ S.listed) :
    Separated x.chunks ∧ ∀ c ∈ x.chunks, 0 ≤ c.start ∧ c.start ≤ c.stop ∧ c.stop ≤ x.fileSize := by
  have hx' : x ∈ S.s.m.claims := by
    unfold DirSys.listed at hx
    split at hx
    · exact (List.mem_filter.1 hx).1
    · cases hx
  obtain ⟨es0, es1, t, tr0, tr1, hup⟩ := (reach_inv h.logReach).1 hu
  rcases hup.claims hr.dt with k | ⟨_, k⟩ | ⟨es, lost, _, _, _, k4, _, _⟩
  · rw [k] at hx'; cases hx'
  · rw [hus] at k; cases k
  · obtain ⟨_, _, _, _, _, h1, _, h2⟩ := k4.sound x hx'
    exact ⟨h1, h2⟩

theorem listed_holds {src : Tag → Bytes → Option Bytes} {v : Bool} (hsrc : ∀ τ τ', Tag.same v τ τ' → src τ = src τ')
    {S : DirSys} {es : List LogEntry} (hr : Run src v S es) (hc : S.s.connected = true) (hus : S.s.usable = true)
    {x : FileChunksInfo} (hx : x ∈ S.listed) (hg : x.fileName ∉ S.gone) :
    HoldsIn (S.files x.fileName) (src S.s.tag x.fileName) (S.safe x.fileName) x.chunks ∧
    ((∀ y ∈ S.opened, y.2 ≠ x.fileName) → S.sizes x.fileName = some x.fileSize) := by
  by_cases hs : S.s.settled = true
  · exact hr.kp hs hus x hx hg
  · have hx' : x ∈ S.s.m.claims := by
      unfold DirSys.listed at hx
      split at hx
      · exact (List.mem_filter.1 hx).1
      · cases hx
    obtain ⟨τ, _, h2, h3, h4, h5, h6⟩ := hr.cl (by simpa using hs) hus x hx'
    have : src τ = src S.s.tag := hsrc _ _ ⟨h2, h3, h4 hc⟩
    rw [this] at h5
    exact ⟨h5, fun _ => h6⟩

theorem listed_one {src : Tag → Bytes → Option Bytes} {v : Bool} {S : DirSys} {es : List LogEntry} (hr : Run src v S es)
    (hus : S.s.usable = true) {x y : FileChunksInfo} (hx : x ∈ S.listed) (hy : y ∈ S.listed) (hn : x.fileName = y.fileName) : x = y := by
  have hcl : ∀ z ∈ S.listed, z ∈ S.s.m.claims := by
    intro z hz
    unfold DirSys.listed at hz
    split at hz
    · exact (List.mem_filter.1 hz).1
    · cases hz
  exact hr.cu hus _ (hcl x hx) _ (hcl y hy) (Or.inl hn)

/-- C87, what a receiver tells a resuming sender: every file that it lists is there, is not
longer than at the sender, has the size that the receiver says, and holds the bytes of the source
wherever the receiver says that it has them; and no file is listed twice.  This holds after any
history of earlier sessions and deaths.  Missing: the log was found usable and files were only
written when it was (`DirReach` with `g`, see C66), everything known fits the buffer in which it
is sent (`hfit`), and sessions with the same recovery id, configuration and (if verified) address
have the same source (`hsrc`). -/
theorem C87_offered_partial (src : Tag → Bytes → Option Bytes) (v : Bool) (hsrc : ∀ τ τ', Tag.same v τ τ' → src τ = src τ')
    (S : DirSys) (h : DirReach src v true S) (hfit : ∀ k x, S.fits k x = true) (hu : S.s.m.up = true)
    (hc : S.s.connected = true) (hus : S.s.usable = true) (x : FileChunksInfo) (hx : x ∈ S.listed) (hg : x.fileName ∉ S.gone) :
    (∃ c b, S.files x.fileName = some c ∧ src S.s.tag x.fileName = some b ∧ c.length ≤ b.length ∧
      ((∀ y ∈ S.opened, y.2 ≠ x.fileName) → x.fileSize = c.length) ∧
      ∀ p : Nat, Covered x.chunks p → p < c.length ∧ c[p]? = b[p]?) ∧
    ∀ y ∈ S.listed, y.fileName = x.fileName → y = x := by
  obtain ⟨es, t, _, hr⟩ := (dir_inv hsrc h hfit).1 hu
  obtain ⟨⟨c, b, h1, h2, h3, h4⟩, h5⟩ := listed_holds hsrc hr hc hus hx hg
  refine ⟨⟨c, b, h1, h2, h3, fun hy => ?_, fun p hp => (h4 p hp).1⟩, fun y hy hn => listed_one hr hus hy hx hn⟩
  have := h5 hy
  simp only [DirSys.sizes, h1, Option.map_some, Option.some.injEq] at this
  exact this.symm

/-- C87, what is on disk: a file of which every byte was either listed to the sender of this
session as received before or has been written in this session equals the source.  Same
restrictions. -/
theorem C87_equal_partial (src : Tag → Bytes → Option Bytes) (v : Bool) (hsrc : ∀ τ τ', Tag.same v τ τ' → src τ = src τ')
    (S : DirSys) (h : DirReach src v true S) (hfit : ∀ k x, S.fits k x = true) (hu : S.s.m.up = true)
    (hc : S.s.connected = true) (hus : S.s.usable = true) (n b : Bytes) (hb : src S.s.tag n = some b) (hg : n ∉ S.gone)
    (hex : (∃ x ∈ S.listed, x.fileName = n) ∨ ∃ y ∈ S.opened, y.2 = n)
    (hall : ∀ p : Nat, p < b.length → (∃ x ∈ S.listed, x.fileName = n ∧ Covered x.chunks p) ∨
      ∃ w ∈ S.written, w.1 = n ∧ w.2.1 ≤ p ∧ p < w.2.1 + w.2.2) : S.files n = some b := by
  obtain ⟨es, t, _, hr⟩ := (dir_inv hsrc h hfit).1 hu
  have hfile : ∃ c, S.files n = some c ∧ c.length ≤ b.length := by
    rcases hex with ⟨x, hx, rfl⟩ | ⟨y, hy, rfl⟩
    · obtain ⟨⟨c, b', h1, h2, h3, _⟩, _⟩ := listed_holds hsrc hr hc hus hx hg
      rw [hb] at h2; cases h2
      exact ⟨c, h1, h3⟩
    · obtain ⟨c, b', h1, h2, h3, _⟩ := hr.rd y hy
      rw [hb] at h2; cases h2
      exact ⟨c, h1, h3⟩
  obtain ⟨c, hcf, hle⟩ := hfile
  have hp : ∀ p : Nat, p < b.length → p < c.length ∧ c[p]? = b[p]? := by
    intro p hp
    rcases hall p hp with ⟨x, hx, rfl, hcov⟩ | ⟨w, hw, rfl, h1, h2⟩
    · obtain ⟨⟨c', b', k1, k2, _, k4⟩, _⟩ := listed_holds hsrc hr hc hus hx hg
      rw [hb] at k2; cases k2
      rw [hcf] at k1; cases k1
      exact (k4 p hcov).1
    · obtain ⟨_, c', b', k1, k2, k3⟩ := hr.wr w hw
      rw [hb] at k2; cases k2
      rw [hcf] at k1; cases k1
      exact k3 p h1 h2
  rw [hcf]
  congr 1
  refine List.ext_getElem? fun p => ?_
  by_cases hlt : p < b.length
  · exact (hp p hlt).2
  · rw [List.getElem?_eq_none (by omega), List.getElem?_eq_none (by omega)]

/-- C87, the whole: the receiver lists what it has to a resuming sender, the sender sends the rest
and reports success.  Then for every file that the sender has found, the headers of its blocks
say what the receiver listed, and either the receiver has had all of it, so that nothing is sent and the file equals the source, or what the threads of the
receiver make of it equals the source.  Same restrictions, and those of C70 (`hr`, `hs`). -/
theorem C87_resumed_transfer_partial (src : Tag → Bytes → Option Bytes) (v : Bool) (hsrc : ∀ τ τ', Tag.same v τ τ' → src τ = src τ')
    (D : DirSys) (h : DirReach src v true D) (hfit : ∀ k x, D.fits k x = true) (hu : D.s.m.up = true)
    (hc : D.s.connected = true) (hus : D.s.usable = true) (ho : D.opened = []) (hg : D.gone = [])
    (c : ECfg) (mb : Int) (del : Bool) (es : List EEvent) (S : ESys) (i : SenderInput)
    (hrun : eRun c (ESys.init c mb del) es = some S) (hi : Succeeded S i) (hr : S.refused = false) (hs : S.silent = false)
    (h1 : (receiverLists es).length ≤ 1) (hl : ∀ x, x ∈ (receiverLists es).flatten ↔ x ∈ D.listed)
    (f : FileRec) (hf : f ∈ foundFiles es) (hone : ∀ g ∈ foundFiles es, g.name = f.name → g = f)
    (b : Bytes) (hb : src D.s.tag f.name = some b) (hsz : f.size = b.length) :
    (∀ bl ∈ S.snd.created, bl.name = f.name → bl.fileSize = b.length ∧ bl.status = D.status f.name b.length) ∧
    (((∀ bl ∈ S.snd.created, bl.name ≠ f.name) ∧ D.files f.name = some b) ∨
      ∀ o q fin, Received S f.name b o (D.status f.name b.length) q (D.files f.name) fin → fin = some b) := by
  obtain ⟨es', t, _, hrun'⟩ := (dir_inv hsrc h hfit).1 hu
  cases hk : D.known f.name with
  | none =>
    have hst : D.status f.name b.length = NOT_EXISTS := by simp [DirSys.status, hk]
    refine ⟨fun bl hbl hbn => ?_, Or.inr fun o q fin hrec => ?_⟩
    · obtain ⟨e1, e2, _⟩ := C72_headers c mb del es S hrun h1 f hf hone bl hbl hbn
      rw [hst]
      exact ⟨by rw [e1, hsz], e2 fun x hx => DirSys.known_none hk x ((hl x).1 hx)⟩
    rw [hst] at hrec
    refine C72_new_file_partial c mb del es S i hrun hi hr hs h1 f hf ?_ b hsz o q _ fin hrec
    intro x hx
    exact DirSys.known_none hk x ((hl x).1 hx)
  | some x =>
    have hx : x ∈ D.listed := List.mem_of_find?_eq_some hk
    have hn : x.fileName = f.name := by simpa using List.find?_some hk
    obtain ⟨⟨b0, b', k1, k2, k3, k4⟩, k5⟩ := listed_holds hsrc hrun' hc hus hx (by rw [hg]; simp)
    rw [hn] at k1 k2
    rw [hb] at k2; cases k2
    have k6 := k5 (by rw [ho]; simp)
    rw [hn] at k6
    simp only [DirSys.sizes, k1, Option.map_some, Option.some.injEq] at k6
    obtain ⟨m1, m2⟩ := listed_shape h hu hus hrun' hx
    have hv : Valid x.chunks := fun c hc => (m2 c hc).2.1
    have huniq : ∀ j ∈ (receiverLists es).flatten, j.fileName = x.fileName → j = x :=
      fun j hj hjn => listed_one hrun' hus ((hl j).1 hj) hx hjn
    have hst : D.status f.name b.length = if x.fileSize < b.length then EXISTS_TOO_SMALL else EXISTS_CORRECT_SIZE := by
      unfold DirSys.status
      rw [hk]
      simp only
      rw [if_neg (by omega)]
    refine ⟨fun bl hbl hbn => ?_, ?_⟩
    · obtain ⟨e1, _, e3⟩ := C72_headers c mb del es S hrun h1 f hf hone bl hbl hbn
      have := e3 x ((hl x).2 hx) hn huniq (by omega)
      rw [hst, ← hsz]
      exact ⟨e1, this⟩
    by_cases hall : ∀ p : Nat, p < b.length → Covered x.chunks p
    · left
      refine ⟨C72_complete_file c mb del es S hrun h1 f hf hone x ((hl x).2 hx) hn huniq x.chunks x.chunks hv
        (fun c hc => (m2 c hc).1) (sorted_self m1 hv) (mergeSorted_self m1).symm (fun c hc => (m2 c hc).2.2) (by omega) ?_, ?_⟩
      · intro p hp1 hp2
        have := hall p.toNat (by omega)
        rwa [Int.toNat_of_nonneg hp1] at this
      · refine C87_equal_partial src v hsrc D h hfit hu hc hus f.name b hb (by rw [hg]; simp) (Or.inl ⟨x, hx, hn⟩) ?_
        intro p hp
        exact Or.inl ⟨x, hx, hn, hall p hp⟩
    · right
      intro o q fin hrec
      rw [k1] at hrec
      have hmiss : ∃ j : Nat, j < b.length ∧ ¬ Covered x.chunks j := by
        by_contra hx
        exact hall fun p hp => by by_contra hy; exact hx ⟨p, hp, hy⟩
      refine C72_resumed_file_partial c mb del es S i hrun hi hr hs h1 f hf x ((hl x).2 hx) hn huniq x.chunks x.chunks hv
        (fun c hc => (m2 c hc).1) (sorted_self m1 hv) (mergeSorted_self m1).symm (fun c hc => (m2 c hc).2.2) b b0 hsz (by omega) k3
        (fun j _ hj => (k4 j hj).1.2) hmiss o q fin ?_
      rwa [hst] at hrec

/-- Operations one after the other. -/
def DirSys.run (src : Tag → Bytes → Option Bytes) (S : DirSys) (ops : List DirOp) : DirSys := ops.foldl (DirSys.step src) S

/-- They can happen. -/
def DirSys.CanRun (src : Tag → Bytes → Option Bytes) (v g : Bool) : DirSys → List DirOp → Prop
  | _, [] => True
  | S, op :: ops => S.Ok src v g op ∧ DirSys.CanRun src v g (S.step src op) ops

theorem dir_run {src : Tag → Bytes → Option Bytes} {v g : Bool} (ops : List DirOp) : ∀ {S : DirSys}, DirReach src v g S →
    DirSys.CanRun src v g S ops → DirReach src v g (S.run src ops) := by
  induction ops with
  | nil => intro S h _; exact h
  | cons op ops ih => intro S h hr; exact ih (.step op h hr.1) hr.2

/-- A check for examples that suffices for `Ok`, of operations other than starts and ends. -/
def DirSys.okB (src : Tag → Bytes → Option Bytes) (g : Bool) (S : DirSys) : DirOp → Bool
  | .log (.connect ip _ ts _ _) => S.s.m.up && !S.s.connected && decide (ip ≠ []) &&
    decide (S.s.m.env.recoveryId.length + ip.length ≤ 4095) && decide (0 ≤ ts ∧ ts ≤ int64Max)
  | .log (.settle _ ts1 ts2 _ _ _) => S.s.m.up && S.s.connected && !S.s.settled && decide (0 ≤ ts1 ∧ ts1 ≤ int64Max) &&
    decide (0 ≤ ts2 ∧ ts2 ≤ int64Max)
  | .log (.flush _) => S.s.m.up && S.s.connected
  | .log .kill => S.s.m.up
  | .size n q => S.s.m.up && S.s.connected && (!g || (S.s.settled && S.s.usable)) && (src S.s.tag n).isSome &&
    S.opened.all (fun y => y.2 ≠ n) && decide (n ∉ S.gone) &&
    (match S.known n with
      | none => S.listed.all (fun x => x.seqId ≠ q) && S.opened.all (fun y => y.1 ≠ q)
      | some x => decide (x.fileSize ≤ (S.src src n).length) && decide (q = x.seqId)) &&
    (openAndSize S.opts (S.status n (S.src src n).length) (S.src src n).length (S.files n)).isSome
  | .entries ts n q => decide ((q, n) ∈ S.opened) && decide (q ∉ S.ready) && (!g || (S.s.settled && S.s.usable)) &&
    S.s.m.up && S.s.connected && decide (0 ≤ ts ∧ ts ≤ int64Max) && decide (0 ≤ q ∧ q ≤ int64Max) &&
    decide ((S.src src n).length ≤ int64Max) && decide (n.length ≤ 4096) &&
    decide (S.status n (S.src src n).length ≠ EXISTS_TOO_LARGE)
  | .write n off len => S.s.m.up && S.s.connected && (!g || (S.s.settled && S.s.usable)) && decide (0 < len) &&
    decide (off + len ≤ (S.src src n).length) && S.ready.any (fun q => (q, n) ∈ S.opened)
  | .block ts n q off len => S.s.m.up && S.s.connected && (!g || (S.s.settled && S.s.usable)) &&
    decide (0 ≤ ts ∧ ts ≤ int64Max) && decide (0 ≤ q ∧ q ≤ int64Max) && decide ((off : Int) ≤ int64Max) && decide ((len : Int) ≤ int64Max) &&
    decide (q ∈ S.ready) && decide ((q, n) ∈ S.opened) &&
    S.written.any (fun w => w.1 = n && decide (w.2.1 ≤ off) && decide (off + len ≤ w.2.1 + w.2.2)) &&
    (List.range len).all (fun k => S.safe n (off + k))
  | .vanish _ => !S.s.m.up
  | .sync n => S.s.m.up && S.ready.any (fun q => (q, n) ∈ S.opened)
  | _ => false

theorem okB_ok {src : Tag → Bytes → Option Bytes} {v g : Bool} {S : DirSys} {op : DirOp} (h : S.okB src g op = true) : S.Ok src v g op := by
  have hgg : (!g || (S.s.settled && S.s.usable)) = true → g = true → S.s.settled = true ∧ S.s.usable = true := by
    rintro h rfl; simpa using h
  cases op with
  | log op =>
    cases op with
    | connect => simp only [DirSys.okB, Bool.and_eq_true, Bool.not_eq_true', decide_eq_true_eq] at h
                 exact ⟨⟨h.1.1.1.1, h.1.1.1.2, h.1.1.2, h.1.2, h.2⟩, trivial⟩
    | settle => simp only [DirSys.okB, Bool.and_eq_true, Bool.not_eq_true', decide_eq_true_eq] at h
                exact ⟨⟨h.1.1.1.1, h.1.1.1.2, h.1.1.2, h.1.2, h.2⟩, trivial⟩
    | flush => simp only [DirSys.okB, Bool.and_eq_true] at h
               exact ⟨h, trivial⟩
    | kill => exact ⟨h, trivial⟩
    | _ => cases h
  | size n q =>
    simp only [DirSys.okB, Bool.and_eq_true, decide_eq_true_eq, List.all_eq_true, Option.isSome_iff_ne_none] at h
    obtain ⟨⟨⟨⟨⟨⟨⟨h1, h2⟩, h3⟩, h4⟩, h5⟩, h6⟩, h7⟩, h8⟩ := h
    obtain ⟨b, hb⟩ := Option.ne_none_iff_exists'.1 h4
    refine ⟨⟨h1, h2⟩, hgg h3, ⟨b, hb, h5, h6, ?_⟩, h8⟩
    cases hk : S.known n with
    | none =>
      rw [hk] at h7
      simp only [Bool.and_eq_true, List.all_eq_true, decide_eq_true_eq] at h7
      exact h7
    | some x =>
      rw [hk] at h7
      simp only [DirSys.src, hb, Option.getD_some, Bool.and_eq_true, decide_eq_true_eq] at h7
      simp only
      rw [if_neg (by omega)]
      exact h7.2
  | entries ts n q =>
    simp only [DirSys.okB, Bool.and_eq_true, decide_eq_true_eq] at h
    obtain ⟨⟨⟨⟨⟨⟨⟨⟨⟨h1, h2⟩, h3⟩, h4⟩, h5⟩, h6⟩, h7⟩, h8⟩, h9⟩, h10⟩ := h
    refine ⟨h1, h2, hgg h3, ?_⟩
    intro e he
    unfold DirSys.sizeEntries at he
    rw [if_neg h10] at he
    split at he
    · rw [List.mem_singleton] at he; subst he
      exact ⟨h4, h5, h6, h7, ⟨by omega, h8⟩, h9⟩
    · split at he
      · rw [List.mem_singleton] at he; subst he
        exact ⟨h4, h5, h6, h7, by omega, h8⟩
      · cases he
  | write n off len =>
    simp only [DirSys.okB, Bool.and_eq_true, decide_eq_true_eq, List.any_eq_true] at h
    obtain ⟨⟨⟨⟨⟨h1, h2⟩, h3⟩, h4⟩, h5⟩, h6⟩ := h
    exact ⟨⟨h1, h2⟩, hgg h3, h4, h5, h6⟩
  | block ts n q off len =>
    simp only [DirSys.okB, Bool.and_eq_true, decide_eq_true_eq, List.any_eq_true, List.all_eq_true, List.mem_range] at h
    obtain ⟨⟨⟨⟨⟨⟨⟨⟨⟨⟨h1, h2⟩, h3⟩, h4⟩, h5⟩, h6⟩, h7⟩, h8⟩, h9⟩, w, hw, ⟨hn, hl⟩, hr⟩, hsf⟩ := h
    refine ⟨⟨h1, h2, h4, h5, ⟨by omega, h6⟩, by omega, h7⟩, hgg h3, h8, h9, ?_⟩
    intro p hp1 hp2
    refine ⟨w, hw, ⟨hn, by omega, by omega⟩, ?_⟩
    have := hsf (p - off) (by omega)
    rwa [show off + (p - off) = p by omega] at this
  | vanish n =>
    simp only [DirSys.okB, Bool.not_eq_true'] at h
    exact h
  | sync n =>
    simp only [DirSys.okB, Bool.and_eq_true, decide_eq_true_eq, List.any_eq_true] at h
    exact h
  | _ => cases h

/-- The check for a list of operations. -/
def DirSys.runB (src : Tag → Bytes → Option Bytes) (g : Bool) : DirSys → List DirOp → Bool
  | _, [] => true
  | S, op :: ops => S.okB src g op && DirSys.runB src g (S.step src op) ops

theorem runB_ok {src : Tag → Bytes → Option Bytes} {v g : Bool} (ops : List DirOp) : ∀ {S : DirSys}, S.runB src g ops = true →
    DirSys.CanRun src v g S ops := by
  induction ops with
  | nil => intro S _; trivial
  | cons op ops ih =>
    intro S h
    simp only [DirSys.runB, Bool.and_eq_true] at h
    exact ⟨okB_ok h.1, ih h.2⟩

/-- The source of the examples: files "a" of 10 bytes and "b" of 3, the same for everybody. -/
def resSrc : Tag → Bytes → Option Bytes := fun _ n => if n = [97] then some exBytes else if n = [98] then some [11, 12, 13] else none

/-- A receiver process that preallocates starts, with the files as they are. -/
def resBoot (S : DirSys) : DirOp := .log (.boot { recoveryId := [114], config := 1, disk := S.sizes } {} [] 1 100)

/-- No file and no log. -/
def resInit (fits : Nat → FileChunksInfo → Bool) : DirSys :=
  { s := { m := { env := { recoveryId := [114], config := 1, disk := fun _ => none } } }, files := fun _ => none, fits := fits }

/-- A sender at "i" sends all of file "b" and 4 bytes of file "a"; then the process dies. -/
def resFirst (fits : Nat → FileChunksInfo → Bool) : List DirOp :=
  [resBoot (resInit fits), .log (.connect [105] false 1 100 100), .log (.settle false 1 1 100 100 100),
   .size [97] 0, .entries 2 [97] 0, .write [97] 0 4, .sync [97], .block 2 [97] 0 0 4,
   .size [98] 1, .entries 2 [98] 1, .write [98] 0 3, .sync [98], .block 2 [98] 1 0 3, .log (.flush 1000), .log .kill]

/-- The directory then. -/
def resCut (fits : Nat → FileChunksInfo → Bool) : DirSys := (resInit fits).run resSrc (resFirst fits)

/-- The sender connects again, resuming. -/
def resAgain (S : DirSys) : List DirOp := [resBoot S, .log (.connect [105] true 4 100 100)]

theorem resBoot_ok {src : Tag → Bytes → Option Bytes} {v g : Bool} {S : DirSys} (h : S.s.m.up = false) : S.Ok src v g (resBoot S) :=
  have h0 : (0 : Int) ≤ 0 ∧ (0 : Int) ≤ int64Max := by decide
  have h1 : (0 : Int) ≤ 1 ∧ (1 : Int) ≤ int64Max := by decide
  ⟨⟨h, rfl, h0, h1, rfl⟩, rfl, rfl, fun _ => rfl⟩

theorem res_reach {src : Tag → Bytes → Option Bytes} {v g : Bool} {S : DirSys} (h : DirReach src v g S) (hd : S.s.m.up = false)
    {ops : List DirOp} (ho : (S.step src (resBoot S)).runB src g ops = true) : DirReach src v g (S.run src (resBoot S :: ops)) :=
  dir_run _ h ⟨resBoot_ok hd, runB_ok _ ho⟩

theorem resCut_reach (v g : Bool) (fits : Nat → FileChunksInfo → Bool)
    (h1 : ((resInit fits).step resSrc (resBoot (resInit fits))).runB resSrc true (resFirst fits).tail = true)
    (h0 : ((resInit fits).step resSrc (resBoot (resInit fits))).runB resSrc false (resFirst fits).tail = true) :
    DirReach resSrc v g (resCut fits) := by
  refine res_reach (.init _ _ _ _) rfl (ops := (resFirst fits).tail) ?_
  cases g
  · exact h0
  · exact h1

theorem resCut_state : (resCut fun _ _ => true).s.m.up = false ∧ DirReach resSrc true true (resCut fun _ _ => true) ∧
    DirReach resSrc true false (resCut fun _ _ => true) :=
  ⟨by decide +kernel, resCut_reach _ _ _ (by decide +kernel) (by decide +kernel), resCut_reach _ _ _ (by decide +kernel) (by decide +kernel)⟩

/-- The receiver that lists what it has after that. -/
def resNow : DirSys := (resCut fun _ _ => true).run resSrc (resAgain (resCut fun _ _ => true))

theorem resNow_reach : DirReach resSrc true true resNow := res_reach resCut_state.2.1 resCut_state.1 (by decide +kernel)

theorem resNow_state : resNow.s.m.up = true ∧ resNow.s.connected = true ∧ resNow.s.usable = true ∧ resNow.opened = [] ∧ resNow.gone = [] ∧
    resNow.listed = [⟨0, [97], 10, [⟨0, 4⟩]⟩, ⟨1, [98], 3, [⟨0, 3⟩]⟩] ∧ resNow.files [97] = some [1, 2, 3, 4, 0, 0, 0, 0, 0, 0] ∧
    resNow.files [98] = some [11, 12, 13] := by decide +kernel

/-- The hypotheses of `C87_offered_partial` can be met: after the death of the first process, the
second lists 4 bytes of "a" and all of "b". -/
example : ∃ S, DirReach resSrc true true S ∧ (∀ k x, S.fits k x = true) ∧ S.s.m.up = true ∧ S.s.connected = true ∧ S.s.usable = true ∧
    (⟨0, [97], 10, [⟨0, 4⟩]⟩ : FileChunksInfo) ∈ S.listed ∧ [97] ∉ S.gone :=
  ⟨resNow, resNow_reach, fun _ _ => rfl, by decide +kernel⟩

/-- Those of `C87_equal_partial` as well, and the file was not equal before: the rest of "a" is
written in the second session. -/
example : ∃ S, DirReach resSrc true true S ∧ (∀ k x, S.fits k x = true) ∧ S.s.m.up = true ∧ S.s.connected = true ∧ S.s.usable = true ∧
    S.listed = [⟨0, [97], 10, [⟨0, 4⟩]⟩, ⟨1, [98], 3, [⟨0, 3⟩]⟩] ∧ S.written = [([97], 4, 6)] ∧ S.gone = [] ∧
    S.files [97] = some exBytes ∧ resNow.files [97] ≠ some exBytes := by
  refine ⟨(resCut fun _ _ => true).run resSrc (resBoot (resCut fun _ _ => true) ::
    [.log (.connect [105] true 4 100 100), .log (.settle false 4 4 100 100 100), .size [97] 0, .entries 5 [97] 0, .write [97] 4 6]),
    res_reach resCut_state.2.1 resCut_state.1 (by decide +kernel), fun _ _ => rfl, ?_⟩
  decide +kernel

/-- The sender that gets this list. -/
def resRest : List EEvent :=
  [.s (.setPrev [⟨0, [97], 10, [⟨0, 4⟩]⟩, ⟨1, [98], 3, [⟨0, 3⟩]⟩]), .s (.discover ⟨[97], 10⟩), .s (.discover ⟨[98], 3⟩),
   .s .finishDiscovery, .s (.connect 0),
   .v (.accept1 0), .s (.pop 0 { name := [97], seqId := 0, prevSeqId := 0, fileSize := 10, status := 1, offset := 4, size := 6 }),
   .s (.openOk 0), .s (.write 0 6), .v (.recv 0), .s (.sent 0 (.ok 0))] ++ exWrapUp

/-- The hypotheses of `C87_resumed_transfer_partial` can be met, with a file of which a part is
missing and one that is complete. -/
example : ∃ S, eRun { n := 1 } (ESys.init { n := 1 } 0 false) resRest = some S ∧ Succeeded S (exInput 1 S) ∧
    S.refused = false ∧ S.silent = false ∧ receiverLists resRest = [resNow.listed] ∧ foundFiles resRest = [⟨[97], 10⟩, ⟨[98], 3⟩] ∧
    Received S [97] exBytes ⟨false, false, true⟩ (resNow.status [97] 10) 7 (resNow.files [97]) (some exBytes) := by
  have h : (match eRun { n := 1 } (ESys.init { n := 1 } 0 false) resRest with
      | some S => decide (S.snd.q.failed = [] ∧
          (senderReport (exInput 1 S)).errorCode = eOK ∧ S.landed = [⟨0, 4, 10⟩] ∧ S.refused = false ∧ S.silent = false)
      | none => false) = true := by decide +kernel
  split at h
  · rename_i S hS
    obtain ⟨h2, h3, h4, h5, h6⟩ := of_decide_eq_true h
    obtain ⟨s, hh, hr, ho⟩ := exReachRest
    have e1 : resNow.status [97] 10 = EXISTS_CORRECT_SIZE := by decide +kernel
    have e2 : resNow.files [97] = some [1, 2, 3, 4, 0, 0, 0, 0, 0, 0] := resNow_state.2.2.2.2.2.2.1
    rw [e1, e2]
    refine ⟨S, hS, exSucceeded 1 (by decide) h2 h3, h5, h6, by decide +kernel, by decide +kernel,
      s, hh, _, [exAttempt 4 6 [5, 6, 7, 8, 9, 10]], hr, fun _ => ho, ?_, ?_, ?_, ?_⟩
    · unfold Attempt.Of; decide +kernel
    · decide +kernel
    · decide +kernel
    · intro l hl hb
      rw [h4] at hl
      simp only [List.mem_cons, List.not_mem_nil, or_false] at hl
      subst hl
      exact ⟨_, List.mem_cons_self, by decide +kernel⟩
  · cases h

/-- Without the restriction on the log C87 does not hold, with the default options and an
unchanged source: the sender is started again without resumption; one of its connections opens a
file, which makes it anew, before another gets to note in the log that the sender does not resume;
the process dies.  Then the sender resumes, and is told that the receiver has what the first
session sent, of which nothing is left. -/
theorem C87_violated_race : ∃ S x, DirReach resSrc true false S ∧ (∀ k x, S.fits k x = true) ∧ S.s.m.up = true ∧ S.s.connected = true ∧
    S.s.usable = true ∧ S.opened = [] ∧ x ∈ S.listed ∧ x.fileName = [98] ∧ x.fileSize = 3 ∧ x.chunks = [⟨0, 3⟩] ∧
    S.files [98] = some [0, 0, 0] ∧ resSrc S.s.tag [98] = some [11, 12, 13] := by
  have h1 : DirReach resSrc true false ((resCut fun _ _ => true).run resSrc (resBoot (resCut fun _ _ => true) ::
      [.log (.connect [105] false 4 100 100), .size [98] 7, .log .kill])) :=
    res_reach resCut_state.2.2 resCut_state.1 (by decide +kernel)
  refine ⟨_, ⟨1, [98], 3, [⟨0, 3⟩]⟩, res_reach h1 (by decide +kernel) (ops := [.log (.connect [105] true 9 100 100)]) (by decide +kernel),
    fun _ _ => rfl, ?_⟩
  decide +kernel

/-- The second process has a small buffer, into which what is known about "a" does not fit. -/
def resSmall (k : Nat) (x : FileChunksInfo) : Bool := decide (k ≠ 2 ∨ x.fileName ≠ [97])

/-- Without the restriction on the buffer C87 does not hold: what does not fit is left out with a
warning, so the sender takes the file for a new one, with a new number; the receiver makes it anew
but the log keeps what it says about the old number.  Once the buffer is large enough the receiver
lists the file twice, first with the ranges of the old one, of which nothing is left. -/
theorem C87_violated_unlisted : ∃ S x y, DirReach resSrc true true S ∧ S.s.m.up = true ∧ S.s.connected = true ∧
    S.s.usable = true ∧ S.opened = [] ∧ S.listed.head? = some x ∧ y ∈ S.listed ∧ y ≠ x ∧ y.fileName = x.fileName ∧
    x.fileName = [97] ∧ x.chunks = [⟨0, 4⟩] ∧ S.files [97] = some [0, 0, 0, 0, 0, 0, 0, 0, 0, 0] ∧
    resSrc S.s.tag [97] = some exBytes := by
  have h0 : DirReach resSrc true true (resCut resSmall) := resCut_reach _ _ _ (by decide +kernel) (by decide +kernel)
  have h1 : DirReach resSrc true true ((resCut resSmall).run resSrc (resBoot (resCut resSmall) ::
      [.log (.connect [105] true 4 100 100), .log (.settle false 4 4 100 100 100), .size [97] 2, .entries 5 [97] 2,
       .log (.flush 1000), .log .kill])) :=
    res_reach h0 (by decide +kernel) (by decide +kernel)
  refine ⟨_, ⟨0, [97], 10, [⟨0, 4⟩]⟩, ⟨2, [97], 10, []⟩, res_reach h1 (by decide +kernel)
    (ops := [.log (.connect [105] true 9 100 100)]) (by decide +kernel), ?_⟩
  decide +kernel

/-- A source that depends on the address of the sender. -/
def resTwo : Tag → Bytes → Option Bytes := fun τ n => if τ.ip = [105] then resSrc τ n else if n = [98] then some [21, 22, 23] else none

/-- C87 needs senders with the same source (`hsrc`): if the receiver does not verify the address,
another sender that resumes is told that the receiver has what the first one sent. -/
theorem C87_violated_other_source : ∃ S x, DirReach resTwo false true S ∧ (∀ k x, S.fits k x = true) ∧ S.s.m.up = true ∧
    S.s.connected = true ∧ S.s.usable = true ∧ S.opened = [] ∧ x ∈ S.listed ∧ x.fileName = [98] ∧ x.fileSize = 3 ∧ x.chunks = [⟨0, 3⟩] ∧
    S.files [98] = some [11, 12, 13] ∧ resTwo S.s.tag [98] = some [21, 22, 23] := by
  let S1 := (resInit fun _ _ => true).run resTwo (resFirst fun _ _ => true)
  have h1 : DirReach resTwo false true S1 :=
    res_reach (.init _ _ _ _) rfl (ops := (resFirst fun _ _ => true).tail) (by decide +kernel)
  have h2 : S1.s.m.up = false := by decide +kernel
  refine ⟨S1.run resTwo [.log (.boot { recoveryId := [114], config := 1, disk := S1.sizes } { verifyOff := true } [] 1 100),
    .log (.connect [106] true 9 100 100)], ⟨1, [98], 3, [⟨0, 3⟩]⟩, dir_run _ h1 ⟨⟨⟨h2, rfl, ⟨by decide, by decide⟩, ⟨by decide, by decide⟩, rfl⟩,
    rfl, rfl, fun h => by cases h⟩, runB_ok _ (by decide +kernel)⟩, fun _ _ => rfl, ?_⟩
  decide +kernel

end Wdt
