import Verif.Lemmas.ResumeSteps
import Verif.Props.DestFile
/-
The invariant of Model/Resume is kept by entries added to the log and by changes of files.
-/
namespace Wdt

/-- Numbers and names belong together. -/
theorem Run.unique {src : Tag → Bytes → Option Bytes} {v : Bool} {S : DirSys} {es : List LogEntry} (h : Run src v S es)
    (hus : S.s.usable = true) {i i' : Int} {n n' : Bytes} (h1 : S.Known i n) (h2 : S.Known i' n') (hx : i = i' ∨ n = n') :
    i = i' ∧ n = n' := by
  have hcl : ∀ x ∈ S.listed, x ∈ S.s.m.claims := by
    intro x hx
    unfold DirSys.listed at hx
    split at hx
    · exact (List.mem_filter.1 hx).1
    · cases hx
  rcases h1 with ⟨x, k1, rfl, rfl⟩ | k1 <;> rcases h2 with ⟨y, k2, rfl, rfl⟩ | k2
  · have := h.cu hus x (hcl x k1) y (hcl y k2) hx.symm
    subst this; exact ⟨rfl, rfl⟩
  · exact h.t2 x k1 _ k2 hx
  · obtain ⟨a, b⟩ := h.t2 y k2 _ k1 (hx.imp Eq.symm Eq.symm)
    exact ⟨a.symm, b.symm⟩
  · have := h.t1 _ k1 _ k2 hx
    simp only [Prod.mk.injEq] at this
    exact this

/-- An entry is added. -/
theorem Run.push {src : Tag → Bytes → Option Bytes} {v : Bool} {S : DirSys} {es : List LogEntry} (h : Run src v S es) (e : LogEntry)
    (hon : Honest src S.files S.safe (es ++ S.s.m.pending ++ [e])) (one : OneName (es ++ S.s.m.pending ++ [e]))
    (kn : S.s.settled = true → S.s.usable = true → ∀ env i n sz r, Live env (es ++ S.s.m.pending ++ [e]) i n sz r → S.Known i n)
    (tr : List TItem) :
    Run src v { S with s := { S.s with m := { S.s.m with pending := S.s.m.pending ++ [e] }, tr := tr } } es := by
  constructor
  · intro l hl
    rcases List.prefix_concat_iff.1 hl with rfl | hl
    · rw [← List.append_assoc]; exact hon
    · exact h.hon l hl
  · intro l hl
    rcases List.prefix_concat_iff.1 hl with rfl | hl
    · rw [← List.append_assoc]; exact one
    · exact h.one l hl
  · exact h.cl
  · exact h.cu
  · exact h.kn0
  · intro k1 k2 l hl env i n sz r hlive
    rcases List.prefix_concat_iff.1 hl with rfl | hl
    · rw [← List.append_assoc] at hlive
      exact kn k1 k2 env i n sz r hlive
    · exact h.kn k1 k2 l hl env i n sz r hlive
  · exact h.top
  · exact h.fresh
  · exact h.t1
  · exact h.t2
  · exact h.kp
  · exact h.rd
  · exact h.wr
  · exact h.go
  · exact h.dt

/-- Only what was recorded about the past changes. -/
theorem Run.tr {src : Tag → Bytes → Option Bytes} {v : Bool} {S : DirSys} {es : List LogEntry} (h : Run src v S es) (tr : List TItem) :
    Run src v { S with s := { S.s with tr := tr } } es :=
  ⟨h.hon, h.one, h.cl, h.cu, h.kn0, h.kn, h.top, h.fresh, h.t1, h.t2, h.kp, h.rd, h.wr, h.go, h.dt⟩

theorem allowed_range {s : LogSys} {e : LogEntry} (ha : s.Allowed (.add e)) : e.InRange := by
  obtain ⟨_, _, ha⟩ := ha
  cases e with
  | header => exact absurd ha (by simp)
  | dirInvalidation => exact absurd ha (by simp)
  | fileCreation ts n i sz => exact ha
  | blockWrite ts i o sz => exact ha
  | fileInvalidation ts i => exact ⟨ha.1, ha.2.1⟩
  | fileResize ts i sz => exact ha

/-- What adding an entry does. -/
theorem add_cases {s : LogSys} {e : LogEntry} (ha : s.Allowed (.add e)) :
    s.m.add e = s.m ∨ (s.m.add e = { s.m with pending := s.m.pending ++ [e] } ∧ s.m.fd = true ∧
      ((∃ ts i, e = .fileInvalidation ts i) ∨ s.m.headerWritten = true)) := by
  have hr := record_ok e (allowed_range ha)
  obtain ⟨_, _, ha⟩ := ha
  unfold LogMgr.add
  cases e with
  | header => exact absurd ha (by simp)
  | dirInvalidation => exact absurd ha (by simp)
  | fileInvalidation ts i =>
    by_cases hfd : s.m.fd = true
    · simp only [hfd, if_true, hr]; exact Or.inr ⟨trivial, trivial, Or.inl ⟨_, _, rfl⟩⟩
    · simp only [hfd, Bool.false_eq_true, if_false]; exact Or.inl trivial
  | fileCreation ts n i sz =>
    by_cases hfd : (s.m.fd && s.m.headerWritten) = true
    · simp only [hfd, if_true, hr]; simp only [Bool.and_eq_true] at hfd; exact Or.inr ⟨trivial, hfd.1, Or.inr hfd.2⟩
    · simp only [hfd, Bool.false_eq_true, if_false]; exact Or.inl trivial
  | blockWrite ts i o sz =>
    by_cases hfd : (s.m.fd && s.m.headerWritten) = true
    · simp only [hfd, if_true, hr]; simp only [Bool.and_eq_true] at hfd; exact Or.inr ⟨trivial, hfd.1, Or.inr hfd.2⟩
    · simp only [hfd, Bool.false_eq_true, if_false]; exact Or.inl trivial
  | fileResize ts i sz =>
    by_cases hfd : (s.m.fd && s.m.headerWritten) = true
    · simp only [hfd, if_true, hr]; simp only [Bool.and_eq_true] at hfd; exact Or.inr ⟨trivial, hfd.1, Or.inr hfd.2⟩
    · simp only [hfd, Bool.false_eq_true, if_false]; exact Or.inl trivial

/-- The state after an entry was handed over. -/
def DirSys.hand (S : DirSys) (e : LogEntry) : DirSys := { S with s := S.s.step (.add e) }

theorem DirSys.hand_fields (S : DirSys) (e : LogEntry) (ha : S.s.Allowed (.add e)) :
    (S.hand e).s.m.up = S.s.m.up ∧ (S.hand e).s.m.log = S.s.m.log ∧ (S.hand e).s.m.claims = S.s.m.claims := by
  unfold DirSys.hand LogSys.step
  rcases add_cases ha with h | ⟨h, _⟩ <;> simp only [h] <;> exact ⟨trivial, trivial, trivial⟩

theorem Run.hand {src : Tag → Bytes → Option Bytes} {v : Bool} {S : DirSys} {es : List LogEntry} (h : Run src v S es) {e : LogEntry}
    (ha : S.s.Allowed (.add e))
    (hp : S.s.m.fd = true → ((∃ ts i, e = .fileInvalidation ts i) ∨ S.s.m.headerWritten = true) →
      Honest src S.files S.safe (es ++ S.s.m.pending ++ [e]) ∧ OneName (es ++ S.s.m.pending ++ [e]) ∧
      (S.s.settled = true → S.s.usable = true → ∀ env i n sz r, Live env (es ++ S.s.m.pending ++ [e]) i n sz r → S.Known i n)) :
    Run src v (S.hand e) es := by
  simp only [DirSys.hand, LogSys.step]
  rcases add_cases ha with hx | ⟨hx, h1, h2⟩
  · rw [hx]; exact h.tr _
  · rw [hx]
    obtain ⟨k1, k2, k3⟩ := hp h1 h2
    exact h.push e k1 k2 k3 _

theorem Run.hand_quiet {src : Tag → Bytes → Option Bytes} {v : Bool} {S : DirSys} {es : List LogEntry} (h : Run src v S es) {e : LogEntry}
    (ha : S.s.Allowed (.add e)) (he : e.quiet) : Run src v (S.hand e) es := by
  refine h.hand ha (fun _ _ => ⟨?_, ?_, ?_⟩)
  · exact (h.hon _ List.prefix_rfl).quiets (by simpa using he)
  · exact (h.one _ List.prefix_rfl).quiets (by simpa using he)
  · intro k1 k2 env i n sz r hlive
    exact h.kn k1 k2 _ List.prefix_rfl env i n sz r (live_quiet he hlive).1

/-- The last header of everything, once a header was written. -/
theorem Up.last {v g : Bool} {s : LogSys} {es0 es1 : List LogEntry} {t : Bytes} {tr0 tr1 : List TItem}
    (h : Up v g s es0 es1 t tr0 tr1) (hw : s.m.headerWritten = true) : lastHdr (es0 ++ es1 ++ s.m.pending) = some s.tag := by
  rw [lastHdr_plain _ _ (fun e he => (h.pend e he).2), lastHdr_append, h.hw hw]; rfl

theorem Run.hand_creation {src : Tag → Bytes → Option Bytes} {v : Bool} {S : DirSys} {es0 es1 : List LogEntry} {t : Bytes} {tr0 tr1 : List TItem}
    (hU : Up v true S.s es0 es1 t tr0 tr1) (h : Run src v S (es0 ++ es1)) {ts : Int} {n : Bytes} {q : Int} {sz : Int}
    (ha : S.s.Allowed (.add (.fileCreation ts n q sz))) (hset : S.s.settled = true) (hus : S.s.usable = true)
    (ho : (q, n) ∈ S.opened) : Run src v (S.hand (.fileCreation ts n q sz)) (es0 ++ es1) := by
  refine h.hand ha (fun _ hw => ?_)
  have hw : S.s.m.headerWritten = true := by
    rcases hw with ⟨_, _, hx⟩ | hw
    · cases hx
    · exact hw
  have hlast := hU.last hw
  have hlast' : lastHdr (es0 ++ es1 ++ S.s.m.pending ++ [.fileCreation ts n q sz]) = some S.s.tag := by
    rw [lastHdr_plain _ _ (by simp [LogEntry.plain])]; exact hlast
  have hk : S.Known q n := Or.inr ho
  have cases' : ∀ env i n' sz' r, Live env (es0 ++ es1 ++ S.s.m.pending ++ [.fileCreation ts n q sz]) i n' sz' r →
      (i = q ∧ n' = n ∧ r = []) ∨ (i ≠ q ∧ Live env (es0 ++ es1 ++ S.s.m.pending) i n' sz' r) := by
    intro env i n' sz' r hlive
    rcases (live_snoc ..).1 hlive with ⟨⟨ts', hx⟩, _, hr⟩ | ⟨k1, r', k2, k3⟩
    · cases hx; exact Or.inl ⟨rfl, rfl, hr⟩
    · simp only [LogEntry.range, List.append_nil] at k3
      simp only [LogEntry.endsFile, decide_eq_false_iff_not] at k1
      exact Or.inr ⟨fun hx => k1 hx.symm, k3 ▸ k2⟩
  have hkn : ∀ env i n' sz' r, Live env (es0 ++ es1 ++ S.s.m.pending ++ [.fileCreation ts n q sz]) i n' sz' r → S.Known i n' := by
    intro env i n' sz' r hlive
    rcases cases' _ _ _ _ _ hlive with ⟨rfl, rfl, _⟩ | ⟨_, hl⟩
    · exact hk
    · exact h.kn hset hus _ List.prefix_rfl _ _ _ _ _ hl
  refine ⟨?_, ?_, fun _ _ => hkn⟩
  · intro env i n' sz' r hlive τ hτ hne
    rw [hlast'] at hτ
    cases hτ
    rcases cases' _ _ _ _ _ hlive with ⟨rfl, rfl, rfl⟩ | ⟨_, hl⟩
    · exact h.rd _ ho
    · exact h.hon _ List.prefix_rfl _ _ _ _ _ hl _ hlast hne
  · intro env i i' n' sz1 sz2 r1 r2 h1 h2
    exact (h.unique hus (hkn _ _ _ _ _ h1) (hkn _ _ _ _ _ h2) (Or.inr rfl)).1

theorem HoldsIn.more {f b : Option Bytes} {sf : Nat → Bool} {r r' : List Interval} (h : HoldsIn f b sf r)
    (h' : ∃ c s, f = some c ∧ b = some s ∧ ∀ p : Nat, Covered r' p → (p < c.length ∧ c[p]? = s[p]?) ∧ sf p = true) : HoldsIn f b sf (r ++ r') := by
  obtain ⟨c, s, h1, h2, h3, h4⟩ := h
  obtain ⟨c', s', k1, k2, k3⟩ := h'
  rw [h1] at k1; rw [h2] at k2
  cases k1; cases k2
  refine ⟨c, s, h1, h2, h3, fun p ⟨x, hx, hp⟩ => ?_⟩
  rcases List.mem_append.1 hx with hx | hx
  · exact h4 p ⟨x, hx, hp⟩
  · exact k3 p ⟨x, hx, hp⟩

theorem Run.hand_block {src : Tag → Bytes → Option Bytes} {v : Bool} {S : DirSys} {es0 es1 : List LogEntry} {t : Bytes} {tr0 tr1 : List TItem}
    (hU : Up v true S.s es0 es1 t tr0 tr1) (h : Run src v S (es0 ++ es1)) {ts : Int} {n : Bytes} {q : Int} {off len : Nat}
    (ha : S.s.Allowed (.add (.blockWrite ts q off len))) (hset : S.s.settled = true) (hus : S.s.usable = true)
    (ho : (q, n) ∈ S.opened)
    (hwr : ∀ p, off ≤ p → p < off + len → ∃ w ∈ S.written, (w.1 = n ∧ w.2.1 ≤ p ∧ p < w.2.1 + w.2.2) ∧ S.safe n p = true) :
    Run src v (S.hand (.blockWrite ts q off len)) (es0 ++ es1) := by
  refine h.hand ha (fun _ hw => ?_)
  have hw : S.s.m.headerWritten = true := by
    rcases hw with ⟨_, _, hx⟩ | hw
    · cases hx
    · exact hw
  have hlast := hU.last hw
  have hlast' : lastHdr (es0 ++ es1 ++ S.s.m.pending ++ [.blockWrite ts q off len]) = some S.s.tag := by
    rw [lastHdr_plain _ _ (by simp [LogEntry.plain])]; exact hlast
  have hk : S.Known q n := Or.inr ho
  have cases' : ∀ env i n' sz' r, Live env (es0 ++ es1 ++ S.s.m.pending ++ [.blockWrite ts q off len]) i n' sz' r →
      ∃ r', Live env (es0 ++ es1 ++ S.s.m.pending) i n' sz' r' ∧ r = r' ++ if q = i then [⟨off, off + len⟩] else [] := by
    intro env i n' sz' r hlive
    rcases (live_snoc ..).1 hlive with ⟨⟨ts', hx⟩, _, hr⟩ | ⟨k1, r', k2, k3⟩
    · cases hx
    · exact ⟨r', k2, k3⟩
  have hkn : ∀ env i n' sz' r, Live env (es0 ++ es1 ++ S.s.m.pending ++ [.blockWrite ts q off len]) i n' sz' r → S.Known i n' := by
    intro env i n' sz' r hlive
    obtain ⟨r', hl, _⟩ := cases' _ _ _ _ _ hlive
    exact h.kn hset hus _ List.prefix_rfl _ _ _ _ _ hl
  refine ⟨?_, ?_, fun _ _ => hkn⟩
  · intro env i n' sz' r hlive τ hτ hne
    rw [hlast'] at hτ
    cases hτ
    obtain ⟨r', hl, hr⟩ := cases' _ _ _ _ _ hlive
    have h0 := h.hon _ List.prefix_rfl _ _ _ _ _ hl _ hlast hne
    rw [hr]
    by_cases hq : q = i
    · rw [if_pos hq]
      have hnn : n = n' := (h.unique hus hk (hkn _ _ _ _ _ hlive) (Or.inl hq)).2
      subst hnn
      refine h0.more ?_
      obtain ⟨c, s, k1, k2, k3, k4⟩ := h0
      refine ⟨c, s, k1, k2, fun p hp => ?_⟩
      obtain ⟨x, hx, hp1, hp2⟩ := hp
      rw [List.mem_singleton] at hx
      subst hx
      simp only at hp1 hp2
      obtain ⟨w, hw1, ⟨hw2, hw3, hw4⟩, hw5⟩ := hwr p (by omega) (by omega)
      obtain ⟨_, c', b', q1, q2, q3⟩ := h.wr w hw1
      rw [hw2] at q1 q2
      rw [k1] at q1; rw [k2] at q2
      cases q1; cases q2
      exact ⟨q3 p hw3 hw4, hw5⟩
    · rw [if_neg hq, List.append_nil]; exact h0
  · intro env i i' n' sz1 sz2 r1 r2 h1 h2
    exact (h.unique hus (hkn _ _ _ _ _ h1) (hkn _ _ _ _ _ h2) (Or.inr rfl)).1

theorem setFile_same (f : Bytes → Option Bytes) (n : Bytes) (c : Option Bytes) : setFile f n c n = c := by simp [setFile]
theorem setFile_other (f : Bytes → Option Bytes) {n m : Bytes} (c : Option Bytes) (h : m ≠ n) : setFile f n c m = f m := by simp [setFile, h]

theorem setSafe_same (f : Bytes → Nat → Bool) (n : Bytes) (c : Nat → Bool) : setSafe f n c n = c := by simp [setSafe]
theorem setSafe_other (f : Bytes → Nat → Bool) {n m : Bytes} (c : Nat → Bool) (h : m ≠ n) : setSafe f n c m = f m := by simp [setSafe, h]

theorem HoldsIn.empty {f b : Option Bytes} {sf sf' : Nat → Bool} (h : HoldsIn f b sf []) : HoldsIn f b sf' [] := by
  obtain ⟨c, s, h1, h2, h3, _⟩ := h
  exact ⟨c, s, h1, h2, h3, fun p hp => by obtain ⟨x, hx, _⟩ := hp; cases hx⟩

/-- The file grew; what was in it stayed. -/
theorem HoldsIn.grow {c c' : Bytes} {b : Option Bytes} {sf : Nat → Bool} {r : List Interval} (h : HoldsIn (some c) b sf r)
    (hk : ∀ (p : Nat) x, c[p]? = some x → c'[p]? = some x ∨ ∃ s, b = some s ∧ c'[p]? = s[p]? ∧ p < c'.length) (hl : ∀ s, b = some s → c'.length ≤ s.length) :
    HoldsIn (some c') b (still sf (some c) (some c')) r := by
  obtain ⟨c0, s, h1, h2, h3, h4⟩ := h
  cases h1
  refine ⟨c', s, rfl, h2, hl s h2, fun p hp => ?_⟩
  obtain ⟨⟨k1, k2⟩, ks⟩ := h4 p hp
  suffices hx : p < c'.length ∧ c'[p]? = s[p]? from ⟨hx, by simp [still, ks, k2, hx.2]⟩
  have hx := List.getElem?_eq_getElem k1
  rcases hk p _ hx with k | ⟨s', q1, q2, q3⟩
  · refine ⟨?_, by rw [k, ← k2, hx]⟩
    by_contra hc
    rw [List.getElem?_eq_none (by omega)] at k; cases k
  · rw [h2] at q1; cases q1
    exact ⟨q3, q2⟩

theorem DirSys.known_none {S : DirSys} {n : Bytes} (h : S.known n = none) : ∀ x ∈ S.listed, x.fileName ≠ n := by
  intro x hx hn
  have := List.find?_eq_none.1 h x hx
  simp [hn] at this

theorem DirSys.known_some {S : DirSys} {n : Bytes} {x : FileChunksInfo} (h : S.known n = some x) : x ∈ S.listed ∧ x.fileName = n := by
  refine ⟨List.mem_of_find?_eq_some h, ?_⟩
  have := List.find?_some h
  simpa using this

/-- Nothing live about a file that is neither listed nor open. -/
theorem Run.no_live {src : Tag → Bytes → Option Bytes} {v : Bool} {S : DirSys} {es : List LogEntry} (h : Run src v S es)
    (hset : S.s.settled = true) (hus : S.s.usable = true) {n : Bytes} (h1 : S.known n = none) (h2 : ∀ y ∈ S.opened, y.2 ≠ n)
    {l : List LogEntry} (hl : l <+: S.s.m.pending) {env : LogEnv} {i : Int} {sz : Int} {r : List Interval} :
    ¬ Live env (es ++ l) i n sz r := by
  intro hlive
  rcases h.kn hset hus l hl env i n sz r hlive with ⟨x, k1, _, k2⟩ | k
  · exact DirSys.known_none h1 x k1 k2
  · exact h2 _ k rfl

/-- A file is replaced. -/
theorem Run.replace {src : Tag → Bytes → Option Bytes} {v : Bool} {S : DirSys} {es : List LogEntry} (h : Run src v S es)
    (hset : S.s.settled = true) {n : Bytes} {f : Option Bytes} {sf : Nat → Bool}
    (hlive : ∀ l, l <+: S.s.m.pending → ∀ env i sz r, Live env (es ++ l) i n sz r → ∀ τ, lastHdr (es ++ l) = some τ → f ≠ none → HoldsIn f (src τ n) sf r)
    (op : List (Int × Bytes)) (wr : List (Bytes × Nat × Nat)) (gone : List Bytes) (tr : List TItem)
    (ho : ∀ y ∈ S.opened, y ∈ op) (hw : ∀ y ∈ S.written, y ∈ wr) (hg : ∀ y ∈ S.gone, y ∈ gone)
    (t1 : ∀ y ∈ op, ∀ z ∈ op, y.1 = z.1 ∨ y.2 = z.2 → y = z)
    (t2 : ∀ x ∈ S.listed, ∀ y ∈ op, x.seqId = y.1 ∨ x.fileName = y.2 → x.seqId = y.1 ∧ x.fileName = y.2)
    (kp : S.s.usable = true → ∀ x ∈ S.listed, x.fileName = n → n ∉ gone →
      HoldsIn f (src S.s.tag n) sf x.chunks ∧ ∃ y ∈ op, y.2 = n)
    (rd : ∀ y ∈ op, HoldsIn (setFile S.files n f y.2) (src S.s.tag y.2) (setSafe S.safe n sf y.2) [])
    (wr' : ∀ w ∈ wr, (∃ q ∈ S.ready, (q, w.1) ∈ op) ∧ ∃ c b, setFile S.files n f w.1 = some c ∧ src S.s.tag w.1 = some b ∧
      ∀ p, w.2.1 ≤ p → p < w.2.1 + w.2.2 → p < c.length ∧ c[p]? = b[p]?)
    (go : ∀ n ∈ gone, ∀ y ∈ op, y.2 ≠ n) :
    Run src v { S with s := { S.s with tr := tr }, files := setFile S.files n f, safe := setSafe S.safe n sf, opened := op, written := wr, gone := gone } es := by
  constructor
  · intro l hl env i m sz r hv τ hτ
    by_cases hm : m = n
    · subst hm
      simp only [setFile_same, setSafe_same]
      exact hlive l hl env i sz r hv τ hτ
    · simp only [setFile_other _ _ hm, setSafe_other _ _ hm]
      exact h.hon l hl env i m sz r hv τ hτ
  · exact h.one
  · intro hx; simp only [hset] at hx; cases hx
  · exact h.cu
  · intro hx; simp only [hset] at hx; cases hx
  · intro k1 k2 l hl env i m sz r hv
    rcases h.kn k1 k2 l hl env i m sz r hv with k | k
    · exact Or.inl k
    · exact Or.inr (ho _ k)
  · exact h.top
  · intro hx; simp only [hset] at hx; cases hx
  · exact t1
  · exact t2
  · intro _ k2 x hx hng
    by_cases hm : x.fileName = n
    · rw [hm] at hng
      obtain ⟨k3, y, k4, k5⟩ := kp k2 x hx hm hng
      refine ⟨?_, fun hno => absurd (k5.trans hm.symm) (hno y k4)⟩
      simp only [hm, setFile_same, setSafe_same]; exact k3
    · obtain ⟨k3, k4⟩ := h.kp hset k2 x hx (fun hc => hng (hg _ hc))
      refine ⟨by simp only [setFile_other _ _ hm, setSafe_other _ _ hm]; exact k3, fun hno => ?_⟩
      have := k4 (fun y hy => hno y (ho y hy))
      simp only [DirSys.sizes, setFile_other _ _ hm]
      exact this
  · exact rd
  · exact wr'
  · exact go
  · exact h.dt

theorem status_cases (S : DirSys) (n : Bytes) (size : Nat) :
    (S.known n = none ∧ S.status n size = NOT_EXISTS) ∨ ∃ x, S.known n = some x ∧
      ((x.fileSize > size ∧ S.status n size = EXISTS_TOO_LARGE) ∨
       (x.fileSize ≤ size ∧ (S.status n size = EXISTS_CORRECT_SIZE ∨ S.status n size = EXISTS_TOO_SMALL))) := by
  unfold DirSys.status
  cases hk : S.known n with
  | none => exact Or.inl ⟨rfl, rfl⟩
  | some x =>
    refine Or.inr ⟨x, rfl, ?_⟩
    simp only
    by_cases h1 : x.fileSize > size
    · exact Or.inl ⟨h1, if_pos h1⟩
    · refine Or.inr ⟨by omega, ?_⟩
      rw [if_neg h1]
      by_cases h2 : x.fileSize < size
      · rw [if_pos h2]; exact Or.inr rfl
      · rw [if_neg h2]; exact Or.inl rfl

theorem dir_size {src : Tag → Bytes → Option Bytes} {v : Bool} (hsrc : ∀ τ τ', Tag.same v τ τ' → src τ = src τ')
    {S : DirSys} {es0 es1 : List LogEntry} {t : Bytes} {tr0 tr1 : List TItem}
    (hU : Up v true S.s es0 es1 t tr0 tr1) (h : Run src v S (es0 ++ es1)) (n : Bytes) (q : Int) (hok : S.Ok src v true (.size n q)) :
    Run src v (S.step src (.size n q)) (es0 ++ es1) := by
  obtain ⟨⟨_, hc⟩, hg, ⟨b, hb, hop, hgo, hq⟩, hne⟩ := hok
  obtain ⟨hset, hus⟩ := hg rfl
  have hsb : S.src src n = b := by simp [DirSys.src, hb]
  rw [hsb] at hne
  obtain ⟨f, hf⟩ := Option.ne_none_iff_exists'.1 hne
  simp only [DirSys.step, LogSys.step, hsb, hf]
  -- the new contents
  have key : (S.known n = none ∧ f.length ≤ b.length) ∨ ∃ x c, S.known n = some x ∧ q = x.seqId ∧ S.files n = some c ∧ f.length ≤ b.length ∧
      (∀ (p : Nat) y, c[p]? = some y → f[p]? = some y) ∧ HoldsIn (S.files n) (src S.s.tag n) (S.safe n) x.chunks := by
    rcases status_cases S n b.length with ⟨k1, k2⟩ | ⟨x, k1, k2⟩
    · refine Or.inl ⟨k1, ?_⟩
      exact openAndSize_length _ _ _ _ _ (fun hx => by rw [k2] at hx; exact absurd hx (by decide)) hf
    · obtain ⟨x1, x2⟩ := DirSys.known_some k1
      obtain ⟨k3, k4⟩ := h.kp hset hus x x1 (by rw [x2]; exact hgo)
      rw [x2] at k3 k4
      have k4' := k4 hop
      obtain ⟨c, s, c1, c2, c3, c4⟩ := id k3
      rw [hb] at c2; cases c2
      have hsz : (c.length : Int) = x.fileSize := by
        rw [DirSys.sizes, c1] at k4'
        exact Option.some.inj k4'
      rcases k2 with ⟨k2, _⟩ | ⟨_, k2⟩
      · omega
      · rw [k1] at hq
        simp only [if_neg (show ¬ x.fileSize > b.length by omega)] at hq
        refine Or.inr ⟨x, c, k1, hq, c1, ?_, ?_, k3⟩
        · exact openAndSize_length _ _ _ _ _ (fun _ b' hb' => by rw [c1] at hb'; cases hb'; exact c3) hf
        · rw [c1] at hf
          exact openAndSize_keeps _ _ _ _ _ c3 k2 hf
  have hgrow : ∀ r, S.known n ≠ none → HoldsIn (S.files n) (src S.s.tag n) (S.safe n) r →
      HoldsIn (some f) (src S.s.tag n) (if S.status n b.length = NOT_EXISTS then fun _ => false else still (S.safe n) (S.files n) (some f)) r := by
    intro r hkn hh
    have hst : S.status n b.length ≠ NOT_EXISTS := by
      rcases status_cases S n b.length with ⟨k, _⟩ | ⟨x, _, ⟨_, k⟩ | ⟨_, k | k⟩⟩
      · exact absurd k hkn
      all_goals rw [k]; decide
    rw [if_neg hst]
    rcases key with ⟨k1, _⟩ | ⟨x, c, k1, _, k3, k4, k5, _⟩
    · exact absurd k1 hkn
    · rw [k3] at hh ⊢
      exact hh.grow (fun p y hp => Or.inl (k5 p y hp)) (fun s hs => by rw [hb] at hs; cases hs; exact k4)
  have hflen : f.length ≤ b.length := by
    rcases key with ⟨_, k⟩ | ⟨_, _, _, _, _, k, _⟩ <;> exact k
  refine h.replace hset ?_ _ S.written S.gone _ (fun y hy => List.mem_append_left _ hy) (fun y hy => hy) (fun y hy => hy) ?_ ?_ ?_ ?_ ?_ ?_
  · intro l hl env i sz r hlive τ hτ _
    by_cases hkn : S.known n = none
    · exact absurd hlive (h.no_live hset hus hkn hop hl)
    · obtain ⟨τ', q1, q2⟩ := live_tag hU hus hc hl.sublist hlive
      rw [q1] at hτ; cases hτ
      rcases key with ⟨k1, _⟩ | ⟨x, c, k1, _, k3, _⟩
      · exact absurd k1 hkn
      · have := h.hon l hl env i n sz r hlive _ q1 (by rw [k3]; simp)
        rw [Tag.src_eq hsrc q2] at this ⊢
        exact hgrow r hkn this
  · intro y hy z hz hyz
    have hnew : ∀ y ∈ S.opened, ¬ (y.1 = q ∨ y.2 = n) := by
      rintro y hy (hyq | hyn)
      · rcases key with ⟨k1, _⟩ | ⟨x, c, k1, k2, _⟩
        · rw [k1] at hq
          exact hq.2 y hy hyq
        · obtain ⟨x1, x2⟩ := DirSys.known_some k1
          have := (h.t2 x x1 y hy (Or.inl (by rw [hyq, k2]))).2
          exact hop y hy (by rw [← this, x2])
      · exact hop y hy hyn
    rcases List.mem_append.1 hy with hy | hy <;> rcases List.mem_append.1 hz with hz | hz
    · exact h.t1 y hy z hz hyz
    · rw [List.mem_singleton] at hz; subst hz
      exact absurd hyz (hnew y hy)
    · rw [List.mem_singleton] at hy; subst hy
      exact absurd (hyz.imp Eq.symm Eq.symm) (hnew z hz)
    · rw [List.mem_singleton] at hy hz; rw [hy, hz]
  · intro x hx y hy hxy
    rcases List.mem_append.1 hy with hy | hy
    · exact h.t2 x hx y hy hxy
    · rw [List.mem_singleton] at hy; subst hy
      rcases key with ⟨k1, _⟩ | ⟨x', c, k1, k2, _⟩
      · rw [k1] at hq
        rcases hxy with hxy | hxy
        · exact absurd hxy (hq.1 x hx)
        · exact absurd hxy (DirSys.known_none k1 x hx)
      · obtain ⟨x1, x2⟩ := DirSys.known_some k1
        obtain ⟨a1, a2⟩ := h.unique hus (Or.inl ⟨x, hx, rfl, rfl⟩) (Or.inl ⟨x', x1, rfl, rfl⟩)
          (by rw [← k2, x2]; exact hxy)
        exact ⟨a1.trans k2.symm, a2.trans x2⟩
  · intro _ x hx hxn _
    refine ⟨?_, (q, n), by simp, rfl⟩
    have hkn : S.known n ≠ none := fun hx' => DirSys.known_none hx' x hx hxn
    have := (h.kp hset hus x hx (by rw [hxn]; exact hgo)).1
    rw [hxn] at this
    exact hgrow _ hkn this
  · intro y hy
    by_cases hyn : y.2 = n
    · rw [hyn, setFile_same, hb]
      exact ⟨f, b, rfl, rfl, hflen, fun p hp => by obtain ⟨x, hx, _⟩ := hp; cases hx⟩
    · rw [setFile_other _ _ hyn]
      rcases List.mem_append.1 hy with hy | hy
      · exact (h.rd y hy).empty
      · rw [List.mem_singleton] at hy; subst hy; exact absurd rfl hyn
  · intro w hw
    obtain ⟨⟨q', k1, k2⟩, k3⟩ := h.wr w hw
    refine ⟨⟨q', k1, List.mem_append_left _ k2⟩, ?_⟩
    rw [setFile_other _ _ (hop _ k2)]
    exact k3
  · intro m hm y hy
    rcases List.mem_append.1 hy with hy | hy
    · exact h.go m hm y hy
    · rw [List.mem_singleton] at hy; subst hy
      rintro rfl
      exact hgo hm

theorem dir_fail {src : Tag → Bytes → Option Bytes} {v : Bool} {S : DirSys} {es : List LogEntry}
    (h : Run src v S es) (n : Bytes) (q : Int) (f : Option Bytes) (hok : S.Ok src v true (.fail n q f)) :
    Run src v (S.step src (.fail n q f)) es := by
  obtain ⟨⟨_, hc⟩, hg, ⟨b, hb, hop, hgo, hq⟩, hkn⟩ := hok
  obtain ⟨hset, hus⟩ := hg rfl
  simp only [DirSys.step, LogSys.step]
  refine h.replace hset ?_ S.opened S.written _ _ (fun y hy => hy) (fun y hy => hy) (fun y hy => List.mem_append_left _ hy) h.t1 h.t2 ?_ ?_ ?_ ?_
  · intro l hl env i sz r hlive
    exact absurd hlive (h.no_live hset hus hkn hop hl)
  · intro _ x hx hxn
    exact absurd hxn (DirSys.known_none hkn x hx)
  · intro y hy
    rw [setFile_other _ _ (hop y hy)]
    exact (h.rd y hy).empty
  · intro w hw
    obtain ⟨⟨q', k1, k2⟩, k3⟩ := h.wr w hw
    refine ⟨⟨q', k1, k2⟩, ?_⟩
    rw [setFile_other _ _ (hop _ k2)]
    exact k3
  · intro m hm y hy
    rcases List.mem_append.1 hm with hm | hm
    · exact h.go m hm y hy
    · rw [List.mem_singleton] at hm; subst hm
      exact hop y hy

theorem dir_unlink {src : Tag → Bytes → Option Bytes} {v : Bool} {S : DirSys} {es : List LogEntry}
    (h : Run src v S es) (n : Bytes) (hok : S.Ok src v true (.unlink n)) : Run src v (S.step src (.unlink n)) es := by
  obtain ⟨⟨_, hc⟩, hg, hop, hb⟩ := hok
  obtain ⟨hset, hus⟩ := hg rfl
  simp only [DirSys.step, LogSys.step]
  refine h.replace hset ?_ S.opened S.written _ _ (fun y hy => hy) (fun y hy => hy) (fun y hy => List.mem_append_left _ hy) h.t1 h.t2 ?_ ?_ ?_ ?_
  · intro l hl env i sz r hlive τ hτ hne
    exact absurd rfl hne
  · intro _ x hx hxn hg
    exact absurd (List.mem_append_right _ (List.mem_singleton.2 rfl)) hg
  · intro y hy
    rw [setFile_other _ _ (hop y hy)]
    exact (h.rd y hy).empty
  · intro w hw
    obtain ⟨⟨q', k1, k2⟩, k3⟩ := h.wr w hw
    refine ⟨⟨q', k1, k2⟩, ?_⟩
    rw [setFile_other _ _ (hop _ k2)]
    exact k3
  · intro m hm y hy
    rcases List.mem_append.1 hm with hm | hm
    · exact h.go m hm y hy
    · rw [List.mem_singleton] at hm; subst hm
      exact hop y hy

theorem part_length {b : Bytes} {off len : Nat} (h : off + len ≤ b.length) : (part b off len).length = len := by
  simp [part]; omega

theorem part_get {b : Bytes} {off len p : Nat} (h1 : off ≤ p) (h2 : p < off + len) : (part b off len)[p - off]? = b[p]? := by
  unfold part
  rw [List.getElem?_take_of_lt (by omega), List.getElem?_drop]
  congr 1; omega

/-- Bytes of the source written where they belong. -/
theorem write_source {c b : Bytes} {off len : Nat} (hl : 0 < len) (hb : off + len ≤ b.length) :
    (fileWrite c off (part b off len)).length = max c.length (off + len) ∧
    (∀ p, off ≤ p → p < off + len → (fileWrite c off (part b off len))[p]? = b[p]?) ∧
    (∀ p x, c[p]? = some x → ¬ (off ≤ p ∧ p < off + len) → (fileWrite c off (part b off len))[p]? = some x) := by
  have hd : part b off len ≠ [] := by
    intro hx
    have := part_length hb
    rw [hx] at this; simp at this; omega
  have hlen := part_length hb
  refine ⟨?_, ?_, ?_⟩
  · unfold fileWrite
    rw [if_neg hd]
    simp only [List.length_append, List.length_take, List.length_replicate, List.length_drop, hlen]
    omega
  · intro p h1 h2
    rw [fileWrite_get _ _ _ hd, if_pos (by omega)]
    exact part_get h1 h2
  · intro p x hx hn
    rw [fileWrite_get _ _ _ hd, if_neg (by omega)]
    have : p < c.length := by
      by_contra hc
      rw [List.getElem?_eq_none (by omega)] at hx; cases hx
    rw [if_neg (by omega)]; exact hx

theorem dir_write {src : Tag → Bytes → Option Bytes} {v : Bool} (hsrc : ∀ τ τ', Tag.same v τ τ' → src τ = src τ')
    {S : DirSys} {es0 es1 : List LogEntry} {t : Bytes} {tr0 tr1 : List TItem}
    (hU : Up v true S.s es0 es1 t tr0 tr1) (h : Run src v S (es0 ++ es1)) (n : Bytes) (off len : Nat) (hok : S.Ok src v true (.write n off len)) :
    Run src v (S.step src (.write n off len)) (es0 ++ es1) := by
  obtain ⟨⟨_, hc⟩, hg, hl0, hle, q, hq1, hq2⟩ := hok
  obtain ⟨hset, hus⟩ := hg rfl
  obtain ⟨c, b, hc1, hb, hlen, _⟩ := h.rd _ hq2
  simp only at hc1 hb
  have hsb : S.src src n = b := by simp [DirSys.src, hb]
  rw [hsb] at hle
  simp only [DirSys.step, LogSys.step, hsb, hc1, Option.map_some]
  obtain ⟨w1, w2, w3⟩ := write_source (c := c) hl0 hle
  generalize fileWrite c off (part b off len) = f at *
  have hgrow : ∀ r, HoldsIn (S.files n) (src S.s.tag n) (S.safe n) r → HoldsIn (some f) (src S.s.tag n) (still (S.safe n) (some c) (some f)) r := by
    intro r hh
    rw [hc1] at hh
    refine hh.grow (fun p y hp => ?_) (fun s hs => by rw [hb] at hs; cases hs; omega)
    by_cases hin : off ≤ p ∧ p < off + len
    · exact Or.inr ⟨b, hb, w2 p hin.1 hin.2, by omega⟩
    · exact Or.inl (w3 p y hp hin)
  refine h.replace hset ?_ S.opened _ S.gone _ (fun y hy => hy) (fun y hy => List.mem_append_left _ hy) (fun y hy => hy) h.t1 h.t2 ?_ ?_ ?_ h.go
  · intro l hl env i sz r hlive τ hτ _
    obtain ⟨τ', q1, q2⟩ := live_tag hU hus hc hl.sublist hlive
    rw [q1] at hτ; cases hτ
    have := h.hon l hl env i n sz r hlive _ q1 (by rw [hc1]; simp)
    rw [Tag.src_eq hsrc q2] at this ⊢
    exact hgrow r this
  · intro _ x hx hxn hg
    refine ⟨?_, (q, n), hq2, rfl⟩
    have := (h.kp hset hus x hx (by rw [hxn]; exact hg)).1
    rw [hxn] at this
    exact hgrow _ this
  · intro y hy
    by_cases hyn : y.2 = n
    · have := h.rd y hy
      rw [hyn] at this ⊢
      rw [setFile_same]; exact (hgrow _ this).empty
    · rw [setFile_other _ _ hyn]; exact (h.rd y hy).empty
  · intro w hw
    rcases List.mem_append.1 hw with hw | hw
    · obtain ⟨k1, c', b', k2, k3, k4⟩ := h.wr w hw
      refine ⟨k1, ?_⟩
      by_cases hwn : w.1 = n
      · rw [hwn] at k2 k3 ⊢
        rw [hc1] at k2; rw [hb] at k3
        cases k2; cases k3
        refine ⟨f, b, setFile_same .., hb, fun p h1 h2 => ?_⟩
        obtain ⟨k5, k6⟩ := k4 p h1 h2
        refine ⟨by omega, ?_⟩
        by_cases hin : off ≤ p ∧ p < off + len
        · exact w2 p hin.1 hin.2
        · rw [← k6, List.getElem?_eq_getElem k5]
          exact w3 p _ (List.getElem?_eq_getElem k5) hin
      · exact ⟨c', b', by rw [setFile_other _ _ hwn]; exact k2, k3, k4⟩
    · rw [List.mem_singleton] at hw; subst hw
      exact ⟨⟨q, hq1, hq2⟩, f, b, setFile_same .., hb, fun p h1 h2 => ⟨by simp only at h1 h2; omega, w2 p h1 h2⟩⟩

end Wdt
