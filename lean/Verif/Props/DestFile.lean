import Verif.Model.DestFile
import Verif.Props.FileCreator
import Verif.Props.FileWriter
import Verif.Props.FileByteSource
import Verif.Props.Chunks
import Mathlib.Tactic.ByContra
/-
C45: the destination equals the source however blocks arrive.
-/
namespace Wdt

/-- A step observes at most one event. -/
theorem FC.step_one {s s' : FC} {a : FAct} {es : List FEv} (hs : s.step a = some (s', es)) :
    es = [] ∨ (∃ q t ok, es = [.sized q t ok] ∧ s.pc t = .creating q) ∨ (∃ q t ok, es = [.opened q t ok]) ∨
      (∃ q t, es = [.exact q] ∧ a = .enter t q true) := by
  cases a with
  | enter t q correct =>
    simp only [FC.step] at hs
    split at hs
    · simp only [Option.some.injEq, FC.enter] at hs
      split at hs
      · split at hs
        · next hc => cases hs; subst hc; exact Or.inr (Or.inr (Or.inr ⟨q, t, rfl, rfl⟩))
        · cases hs; exact Or.inl rfl
      · cases hs; exact Or.inl rfl
      · cases hs; exact Or.inl rfl
      · cases hs; exact Or.inl rfl
    · cases hs
  | go t ok =>
    simp only [FC.step, FC.go] at hs
    split at hs
    · cases hs
    · next q hp => cases hs; exact Or.inr (Or.inl ⟨q, t, ok, rfl, hp⟩)
    · cases hs; exact Or.inl rfl
    · split at hs <;> cases hs; exact Or.inl rfl
    · split at hs <;> cases hs; exact Or.inl rfl
    · split at hs <;> cases hs; exact Or.inl rfl
    · split at hs <;> cases hs <;> exact Or.inl rfl
    · cases hs; exact Or.inl rfl
    · cases hs
    · next q hp => cases hs; exact Or.inr (Or.inr (Or.inl ⟨q, t, ok, rfl⟩))
    · cases hs; exact Or.inl rfl
  | wake t =>
    simp only [FC.step] at hs
    split at hs
    · cases hs; exact Or.inl rfl
    · cases hs

/-- A file that is allocated stays so. -/
theorem FC.step_allocated {s s' : FC} {a : FAct} {es : List FEv} (hv : FcInv s) (hs : s.step a = some (s', es)) (q : Nat)
    (h : s.map q = some .allocated ∨ .exact q ∈ es) : s'.map q = some .allocated := by
  cases a with
  | enter t q' correct =>
    simp only [FC.step] at hs
    split at hs
    · simp only [Option.some.injEq, FC.enter] at hs
      split at hs
      · next hn =>
        split at hs
        · cases hs
          show setAt s.map q' _ q = _
          unfold setAt
          split
          · rfl
          · next hne =>
            rcases h with h | h
            · exact h
            · simp only [List.mem_singleton, FEv.exact.injEq] at h; exact absurd h hne
        · cases hs
          show setAt s.map q' _ q = _
          rcases h with h | h
          · unfold setAt
            rw [if_neg]
            · exact h
            · rintro rfl; rw [hn] at h; cases h
          · cases h
      all_goals
        cases hs
        rcases h with h | h
        · exact h
        · cases h
    · cases hs
  | go t ok =>
    simp only [FC.step, FC.go] at hs
    have none : ∀ {es : List FEv}, (∀ q, .exact q ∉ es) → (s.map q = some .allocated ∨ .exact q ∈ es) → s.map q = some .allocated :=
      fun h1 h2 => h2.resolve_right (h1 q)
    split at hs
    · cases hs
    · cases hs; exact none (by simp) h
    · next q' r hp =>
      cases hs
      show setAt s.map q' _ q = _
      have h' := none (by simp) h
      unfold setAt
      rw [if_neg]
      · exact h'
      · rintro rfl
        have := hv.b q t (by rw [hp]; rfl)
        rw [h'] at this
        cases this
    · split at hs <;> cases hs; exact none (by simp) h
    · split at hs <;> cases hs; exact none (by simp) h
    · split at hs <;> cases hs; exact none (by simp) h
    · split at hs <;> cases hs <;> exact none (by simp) h
    · cases hs; exact none (by simp) h
    · cases hs
    · cases hs; exact none (by simp) h
    · cases hs; exact none (by simp) h
  | wake t =>
    simp only [FC.step] at hs
    split at hs
    · cases hs
      rcases h with h | h
      · exact h
      · cases h
    · cases hs

theorem sizedCount_pos (q t : Nat) (ok : Bool) (h : List FEv) (hm : .sized q t ok ∈ h) : 0 < sizedCount q h := by
  induction h with
  | nil => cases hm
  | cons e h ih =>
    rcases List.mem_cons.1 hm with rfl | hm
    · simp only [sizedCount, if_true]; omega
    · have := ih hm
      cases e <;> simp only [sizedCount] <;> omega

theorem DReach.fc {o : DOpts} {st : AllocStatus} {size q : Nat} {f0 f : Option Bytes} {s : FC} {h : List FEv} {cs : List WCall}
    (hr : DReach o st size q f0 s h f cs) : FReach s h := by
  induction hr with
  | init => exact .init
  | step a hr hs ha he ih => exact .step a ih hs
  | write t c hr ht ih => exact ih

/-- What is known about the file. -/
structure DInv (o : DOpts) (st : AllocStatus) (size q : Nat) (f0 : Option Bytes) (s : FC) (h : List FEv) (f : Option Bytes)
    (cs : List WCall) : Prop where
  exact : .exact q ∈ h → s.map q = some .allocated
  before : ¬ Ready h q → cs = [] ∧ (sizedCount q h = 0 → f = f0)
  after : Ready h q → f = (openAndSize o st size f0).map (applyCalls · cs)
  fd : ∀ t, .sized q t true ∈ h ∨ .opened q t true ∈ h → f ≠ none ∧ Ready h q
  status : .exact q ∈ h → st = EXISTS_CORRECT_SIZE

theorem DReach.inv {o : DOpts} {st : AllocStatus} {size q : Nat} {f0 f : Option Bytes} {s : FC} {h : List FEv} {cs : List WCall}
    (hr : DReach o st size q f0 s h f cs) : DInv o st size q f0 s h f cs := by
  induction hr with
  | init => exact ⟨by simp, fun _ => ⟨rfl, fun _ => rfl⟩, (by rintro (⟨t, h⟩ | h) <;> cases h), by simp, by simp⟩
  | write t c hr ht ih =>
    obtain ⟨h1, h2, h3, h4, h5⟩ := ih
    have hrd := (h4 t ht).2
    refine ⟨h1, fun hn => absurd hrd hn, fun _ => ?_, fun t ht => ⟨by simp, hrd⟩, h5⟩
    cases ho : openAndSize o st size f0 with
    | none => have := h3 hrd; simp [ho] at this
    | some base =>
      have h3' := h3 hrd
      rw [ho] at h3'
      simp only [Option.map_some, Option.some.injEq] at h3' ⊢
      rw [h3']
      simp [applyCalls]
  | step a hr hs ha he ih =>
    rename_i s s' h es f f' cs
    have hv := hr.fc.inv
    have hh := hr.fc.hist
    obtain ⟨h1, h2, h3, h4, h5⟩ := ih
    have hmap := fun hx => FC.step_allocated hv hs q hx
    have nocreate : Ready h q → ∀ t, s.pc t ≠ .creating q := by
      rintro (⟨u, hu⟩ | hu) t hp
      · have := hh.creating q t hp
        have := sizedCount_pos q u true h hu
        omega
      · have := hv.b q t (by rw [hp]; rfl)
        rw [h1 hu] at this
        cases this
    rcases FC.step_one hs with rfl | ⟨q', t, ok, rfl, hp⟩ | ⟨q', t, ok, rfl⟩ | ⟨q', t, rfl, rfl⟩
    · have hf : f' = f := he
      subst hf
      rw [List.append_nil]
      exact ⟨fun hx => hmap (Or.inl (h1 hx)), h2, h3, h4, h5⟩
    · by_cases hq : q = q'
      · subst hq
        have hnr : ¬ Ready h q := fun hr => nocreate hr t hp
        obtain ⟨c1, c2⟩ := h2 hnr
        have c2' := c2 (hh.creating q t hp)
        subst c1
        subst c2'
        have he' : ok = true → f' = openAndSize o st size f ∧ f' ≠ none := by
          have he0 : (if q = q then (ok = true → f' = openAndSize o st size f ∧ f' ≠ none) else f' = f) := he
          rw [if_pos rfl] at he0
          exact he0
        have hnopen : ∀ u, .sized q u true ∉ h ∧ .opened q u true ∉ h := by
          intro u
          exact ⟨fun hx => hnr (h4 u (Or.inl hx)).2, fun hx => hnr (h4 u (Or.inr hx)).2⟩
        refine ⟨fun hx => hmap (Or.inl (h1 (by simpa using hx))), fun hn => ⟨rfl, fun hc => ?_⟩, fun hrd => ?_, fun u hu => ?_,
          fun hx => h5 (by simpa using hx)⟩
        · rw [sizedCount_append] at hc
          simp [sizedCount] at hc
        · have hok : ok = true := by
            rcases hrd with ⟨u, hu⟩ | hu
            · rcases List.mem_append.1 hu with hu | hu
              · exact absurd hu (hnopen u).1
              · simp only [List.mem_singleton, FEv.sized.injEq] at hu
                exact hu.2.2.symm
            · rcases List.mem_append.1 hu with hu | hu
              · exact absurd (Or.inr hu) hnr
              · simp at hu
          rw [(he' hok).1]
          cases openAndSize o st size f <;> simp [applyCalls]
        · have hok : ok = true := by
            rcases hu with hu | hu
            · rcases List.mem_append.1 hu with hu | hu
              · exact absurd hu (hnopen u).1
              · simp only [List.mem_singleton, FEv.sized.injEq] at hu
                exact hu.2.2.symm
            · rcases List.mem_append.1 hu with hu | hu
              · exact absurd hu (hnopen u).2
              · simp at hu
          exact ⟨(he' hok).2, by rw [hok]; exact ready_of_sized h q t⟩
      · have hf : f' = f := by
          have he0 : (if q' = q then (ok = true → f' = openAndSize o st size f ∧ f' ≠ none) else f' = f) := he
          rw [if_neg (fun h => hq h.symm)] at he0
          exact he0
        subst hf
        have hrd : Ready (h ++ [.sized q' t ok]) q ↔ Ready h q := by
          unfold Ready
          simp [hq]
        refine ⟨fun hx => hmap (Or.inl (h1 (by simpa using hx))), fun hn => ?_, fun hx => h3 (hrd.1 hx), fun u hu => ?_,
          fun hx => h5 (by simpa using hx)⟩
        · obtain ⟨c1, c2⟩ := h2 (fun hx => hn (hrd.2 hx))
          refine ⟨c1, fun hc => c2 ?_⟩
          rw [sizedCount_append] at hc
          omega
        · rw [hrd]
          exact h4 u (by simpa [hq] using hu)
    · have he0 : f' = f ∧ (q' = q → ok = true → f ≠ none) := he
      obtain ⟨hf, hn⟩ := he0
      subst hf
      have hrd : Ready (h ++ [.opened q' t ok]) q ↔ Ready h q := by
        unfold Ready
        simp
      refine ⟨fun hx => hmap (Or.inl (h1 (by simpa using hx))), fun hnr => ?_, fun hx => h3 (hrd.1 hx), fun u hu => ?_,
        fun hx => h5 (by simpa using hx)⟩
      · obtain ⟨c1, c2⟩ := h2 (fun hx => hnr (hrd.2 hx))
        refine ⟨c1, fun hc => c2 ?_⟩
        rw [sizedCount_append] at hc
        omega
      · rcases hu with hu | hu
        · rw [hrd]; exact h4 u (Or.inl (by simpa using hu))
        · rcases List.mem_append.1 hu with hu | hu
          · rw [hrd]; exact h4 u (Or.inr hu)
          · simp only [List.mem_singleton, FEv.opened.injEq] at hu
            obtain ⟨rfl, rfl, rfl⟩ := hu
            refine ⟨hn rfl rfl, ?_⟩
            exact ((FReach.step a hr.fc hs).hist.order h q u true [] rfl).mono _
    · have hf : f' = f := he
      subst hf
      by_cases hq : q = q'
      · subst hq
        have hst := (ha t true rfl).1 rfl
        have hd0 : ∀ c : Bytes, applyCalls c [] = c := fun _ => rfl
        refine ⟨fun hx => hmap (Or.inr (by simp)), fun hn => absurd (ready_of_exact h q) hn, fun _ => ?_, fun u hu => ?_,
          fun _ => hst⟩
        · by_cases hrd : Ready h q
          · exact h3 hrd
          · obtain ⟨c1, c2⟩ := h2 hrd
            have hz : sizedCount q h = 0 := by
              -- the entry of the file was missing before this step
              simp only [FC.step] at hs
              split at hs
              · simp only [Option.some.injEq, FC.enter] at hs
                split at hs
                · next hn => exact hh.none q hn
                all_goals (cases hs)
              · cases hs
            rw [c1, c2 hz, hst]
            cases f0 <;> simp [openAndSize, EXISTS_CORRECT_SIZE, NOT_EXISTS, applyCalls]
        · exact ⟨(h4 u (by simpa using hu)).1, ready_of_exact h q⟩
      · have hrd : Ready (h ++ [.exact q']) q ↔ Ready h q := by
          unfold Ready
          simp [hq]
        refine ⟨fun hx => hmap (Or.inl (h1 (by simpa [hq] using hx))), fun hn => ?_,
          fun hx => h3 (hrd.1 hx), fun u hu => ?_, fun hx => h5 (by simpa [hq] using hx)⟩
        · obtain ⟨c1, c2⟩ := h2 (fun hx => hn (hrd.2 hx))
          refine ⟨c1, fun hc => c2 ?_⟩
          rw [sizedCount_append] at hc
          omega
        · rw [hrd]
          exact h4 u (by simpa using hu)

theorem setFileSize_length (prealloc : Bool) (size : Nat) (f : Bytes) : (setFileSize prealloc size f).length ≤ size := by
  unfold setFileSize truncTo allocTo
  by_cases h1 : f.length > size
  · simp only [if_pos h1]
    cases prealloc
    · simp
    · simp only [if_true]
      split
      · next h2 => subst h2; simp
      · simp; omega
  · simp only [if_neg h1]
    cases prealloc
    · simp; omega
    · simp only [if_true]
      split
      · omega
      · simp; omega

/-- After opening, the file is not longer than it should be. -/
theorem openAndSize_length (o : DOpts) (st : AllocStatus) (size : Nat) (f0 : Option Bytes) (base : Bytes)
    (hc : st = EXISTS_CORRECT_SIZE → ∀ b, f0 = some b → b.length ≤ size) (h : openAndSize o st size f0 = some base) :
    base.length ≤ size := by
  unfold openAndSize at h
  split at h
  · rw [Option.map_eq_some_iff] at h
    obtain ⟨b, _, rfl⟩ := h
    exact setFileSize_length _ _ _
  · split at h
    · next h1 => exact hc h1 base h
    · rw [Option.map_eq_some_iff] at h
      obtain ⟨b, _, rfl⟩ := h
      exact setFileSize_length _ _ _

/-- Opening a file that has the right size or is too small keeps what is in it. -/
theorem openAndSize_keeps (o : DOpts) (st : AllocStatus) (size : Nat) (b base : Bytes) (hb : b.length ≤ size)
    (hst : st = EXISTS_CORRECT_SIZE ∨ st = EXISTS_TOO_SMALL) (h : openAndSize o st size (some b) = some base) (j : Nat) (v : UInt8)
    (hv : b[j]? = some v) : base[j]? = some v := by
  have hlt : j < b.length := by
    rcases Nat.lt_or_ge j b.length with h | h
    · exact h
    · rw [List.getElem?_eq_none h] at hv; cases hv
  have hne : st ≠ NOT_EXISTS := by rcases hst with rfl | rfl <;> decide
  unfold openAndSize at h
  rw [if_neg hne] at h
  split at h
  · cases h; exact hv
  · simp only [Option.map_some, Option.some.injEq] at h
    subst h
    unfold setFileSize allocTo
    simp only [if_neg (show ¬ b.length > size by omega)]
    split
    · exact hv
    · split
      · rw [List.getElem?_append_left hlt]; exact hv
      · exact hv

theorem apply_length (cs : List WCall) (n : Nat) (f : Bytes) (hf : f.length ≤ n)
    (h : ∀ c ∈ cs, ∀ j, c.Covers j → j < n) : (applyCalls f cs).length ≤ n := by
  induction cs generalizing f with
  | nil => exact hf
  | cons c cs ih =>
    show (applyCalls (fileWrite f c.1 c.2) cs).length ≤ n
    apply ih
    · unfold fileWrite
      split
      · exact hf
      · next hd =>
        have hpos : 0 < c.2.length := List.length_pos_iff.2 hd
        have := h c (by simp) (c.1 + c.2.length - 1) ⟨by omega, by omega⟩
        simp
        omega
    · intro x hx; exact h x (by simp [hx])

/-- The receiving of a block of `src`: the data are the first bytes of the block, as many as
arrived before the connection broke. -/
def Attempt.Of (src : Bytes) (a : Attempt) : Prop :=
  a.offset + a.dataSize ≤ src.length ∧ (FWriter.make a.offset a.dataSize).open true true = (a.w, .ok) ∧
    (a.bufs.map (·.1)).flatten <+: blockOf src a.offset a.dataSize

theorem Attempt.spec {src : Bytes} {a : Attempt} (h : a.Of src) :
    (∀ c ∈ a.calls, ∀ j, c.Covers j → j < src.length ∧ c.2[j - c.1]? = src[j]?) ∧
    (∀ j, a.offset ≤ j → j < a.offset + a.written → ∃ c ∈ a.calls, c.Covers j) := by
  obtain ⟨h1, h2, h3⟩ := h
  have hw : a.w.fd = some a.offset ∧ a.w.total = 0 := by
    unfold FWriter.open FWriter.make at h2
    simp only [Bool.not_true, Bool.false_eq_true, if_false, if_true] at h2
    split at h2
    · simp only [Prod.mk.injEq, and_true] at h2; rw [← h2]; exact ⟨rfl, rfl⟩
    · rename_i h
      simp only [gt_iff_lt, Nat.not_lt, Nat.le_zero] at h
      simp only [Prod.mk.injEq, and_true] at h2; rw [← h2]
      exact ⟨by simp [h], rfl⟩
  obtain ⟨pre, g1, g2, g3, _, _⟩ := writes_spec a.interval a.bufs a.w a.offset hw.1
  have hpre := g2.trans h3
  have hlen : (blockOf src a.offset a.dataSize).length = a.dataSize := by
    unfold blockOf; rw [List.length_take, List.length_drop]; omega
  have hpl := hpre.length_le
  constructor
  · intro c hc j hj
    obtain ⟨e1, e2, e3⟩ := g1.value c hc j hj
    refine ⟨by omega, ?_⟩
    obtain ⟨rest, hrest⟩ := hpre
    have hg : pre[j - a.offset]? = (blockOf src a.offset a.dataSize)[j - a.offset]? := by
      rw [← hrest, List.getElem?_append_left (by omega)]
    rw [e3, hg]
    unfold blockOf
    rw [List.getElem?_take_of_lt (by omega), List.getElem?_drop]
    congr 1; omega
  · intro j e1 e2
    have e2' : j < a.offset + (a.w.writes a.interval a.bufs).w.total := e2
    exact g1.covers j e1 (by omega)

/-- **C45.**  A session in which any number of threads open a destination file and write
blocks of the source into it, in any order and any interleaving of the single system calls,
blocks as often as they like, completely or in part, after an earlier session or not, with
preallocation or not.  When every byte of the source lies in what some thread reported as
written, or was in the file before and is not to be resent, then the destination has
exactly the contents of the source. -/
theorem C45_equal (o : DOpts) (st : AllocStatus) (q : Nat) (f0 f : Option Bytes) (src : Bytes) (s : FC) (h : List FEv)
    (cs : List WCall) (hr : DReach o st src.length q f0 s h f cs)
    (hopen : ∃ t, .sized q t true ∈ h ∨ .opened q t true ∈ h)
    (hold : st = EXISTS_CORRECT_SIZE ∨ st = EXISTS_TOO_SMALL → ∀ b, f0 = some b → b.length ≤ src.length)
    (as : List Attempt) (has : ∀ a ∈ as, a.Of src)
    (hcs : ∀ c ∈ cs, ∃ a ∈ as, c ∈ a.calls) (hall : ∀ a ∈ as, ∀ c ∈ a.calls, c ∈ cs)
    (hcover : ∀ j, j < src.length → (∃ a ∈ as, a.offset ≤ j ∧ j < a.offset + a.written) ∨
      ((st = EXISTS_CORRECT_SIZE ∨ st = EXISTS_TOO_SMALL) ∧ ∃ b, f0 = some b ∧ b[j]? = src[j]?)) :
    f = some src := by
  obtain ⟨_, _, i3, i4, _⟩ := hr.inv
  obtain ⟨t, ht⟩ := hopen
  obtain ⟨hsome, hready⟩ := i4 t ht
  have hf := i3 hready
  cases ho : openAndSize o st src.length f0 with
  | none => rw [ho] at hf; exact absurd hf hsome
  | some base =>
    rw [ho] at hf
    simp only [Option.map_some] at hf
    rw [hf]
    congr 1
    have hbl := openAndSize_length o st src.length f0 base (fun h1 => hold (Or.inl h1)) ho
    have hval : ∀ c ∈ cs, ∀ j, c.Covers j → j < src.length ∧ c.2[j - c.1]? = src[j]? := by
      intro c hc j hj
      obtain ⟨a, ha, hca⟩ := hcs c hc
      exact (Attempt.spec (has a ha)).1 c hca j hj
    have hlen := apply_length cs src.length base hbl (fun c hc j hj => (hval c hc j hj).1)
    apply List.ext_getElem?
    intro j
    by_cases hj : j < src.length
    · rw [List.getElem?_eq_getElem hj]
      apply apply_value
      · intro c hc hcov
        rw [(hval c hc j hcov).2, List.getElem?_eq_getElem hj]
      · rcases hcover j hj with ⟨a, ha, h1, h2⟩ | ⟨hst, b, hb, hv⟩
        · obtain ⟨c, hc, hcov⟩ := (Attempt.spec (has a ha)).2 j h1 h2
          exact Or.inr ⟨c, hall a ha c hc, hcov⟩
        · left
          rw [hb] at ho
          rw [List.getElem?_eq_getElem hj] at hv
          exact openAndSize_keeps o st _ b base (hold hst b hb) hst ho j _ hv
    · rw [List.getElem?_eq_none (by omega), List.getElem?_eq_none (by omega)]

/-- Where a byte of a written file comes from. -/
theorem applyCalls_origin (cs : List WCall) (f : Bytes) (j : Nat) (v : UInt8) (h : (applyCalls f cs)[j]? = some v) :
    f[j]? = some v ∨ v = 0 ∨ ∃ c ∈ cs, c.Covers j ∧ c.2[j - c.1]? = some v := by
  induction cs generalizing f with
  | nil => exact Or.inl h
  | cons c cs ih =>
    rcases ih (fileWrite f c.1 c.2) h with h1 | h1 | ⟨d, hd, h1⟩
    · by_cases he : c.2 = []
      · unfold fileWrite at h1
        rw [if_pos he] at h1
        exact Or.inl h1
      · rw [fileWrite_get _ _ _ he] at h1
        split at h1
        · next hc => exact Or.inr (Or.inr ⟨c, by simp, hc, h1⟩)
        · split at h1
          · simp only [Option.some.injEq] at h1
            exact Or.inr (Or.inl h1.symm)
          · exact Or.inl h1
    · exact Or.inr (Or.inl h1)
    · exact Or.inr (Or.inr ⟨d, by simp [hd], h1⟩)

theorem setFileSize_empty (p : Bool) (n : Nat) (j : Nat) (v : UInt8) (h : (setFileSize p n [])[j]? = some v) : v = 0 := by
  have : ∀ x ∈ setFileSize p n [], x = 0 := by
    intro x hx
    unfold setFileSize at hx
    simp only [List.length_nil, gt_iff_lt, Nat.not_lt_zero, if_false, allocTo, List.nil_append] at hx
    split at hx
    · cases hx
    · split at hx
      · exact List.eq_of_mem_replicate hx
      · cases hx
  exact this v (List.mem_of_getElem? h)

/-- **C45 (nothing old).**  A file that the sender sends whole, whatever was there under its
name.  At every moment after it was opened, also when blocks are still missing, each of its
bytes is the byte of the source at that place or zero; it is never longer than the source. -/
theorem C45_nothing_old (o : DOpts) (q : Nat) (f0 : Option Bytes) (b src : Bytes) (s : FC) (h : List FEv)
    (cs : List WCall) (hr : DReach o NOT_EXISTS src.length q f0 s h (some b) cs)
    (hopen : ∃ t, .sized q t true ∈ h ∨ .opened q t true ∈ h)
    (as : List Attempt) (has : ∀ a ∈ as, a.Of src) (hcs : ∀ c ∈ cs, ∃ a ∈ as, c ∈ a.calls) :
    b.length ≤ src.length ∧ ∀ (j : Nat) (v : UInt8), b[j]? = some v → v = 0 ∨ src[j]? = some v := by
  obtain ⟨_, _, i3, i4, _⟩ := hr.inv
  obtain ⟨t, ht⟩ := hopen
  obtain ⟨hsome, hready⟩ := i4 t ht
  have hf := i3 hready
  cases ho : openAndSize o NOT_EXISTS src.length f0 with
  | none => rw [ho] at hf; exact absurd hf hsome
  | some base =>
    rw [ho] at hf
    simp only [Option.map_some, Option.some.injEq] at hf
    have hbl := openAndSize_length o NOT_EXISTS src.length f0 base (fun h1 => absurd h1 (by decide)) ho
    have hval : ∀ c ∈ cs, ∀ j, c.Covers j → j < src.length ∧ c.2[j - c.1]? = src[j]? := by
      intro c hc j hj
      obtain ⟨a, ha, hca⟩ := hcs c hc
      exact (Attempt.spec (has a ha)).1 c hca j hj
    have hlen := apply_length cs src.length base hbl (fun c hc j hj => (hval c hc j hj).1)
    refine ⟨by rw [hf]; exact hlen, fun j v hv => ?_⟩
    have hbase : base = setFileSize o.prealloc src.length [] := by
      unfold openAndSize at ho
      rw [if_pos rfl] at ho
      unfold createOpen at ho
      split at ho
      · simpa using ho.symm
      · split at ho
        · simpa using ho.symm
        · cases ho
    rw [hf] at hv
    rcases applyCalls_origin cs base j v hv with h1 | h1 | ⟨c, hc, h1, h2⟩
    · rw [hbase] at h1
      exact Or.inl (setFileSize_empty _ _ j v h1)
    · exact Or.inl h1
    · exact Or.inr (by rw [← (hval c hc j h1).2]; exact h2)

/-- How many steps the block loop is given does not matter. -/
theorem tileAll_fuel_unique {bs : Int} {rs : List Interval} {f1 f2 : Nat} {a b : List Block}
    (ha : tileAll bs f1 rs = some a) (hb : tileAll bs f2 rs = some b) : a = b := by
  induction rs generalizing a b with
  | nil => simp [tileAll] at ha hb; rw [ha, hb]
  | cons r rs ihr =>
    simp only [tileAll] at ha hb
    split at ha
    · rename_i x1 x2 hx1 hx2
      split at hb
      · rename_i y1 y2 hy1 hy2
        simp only [Option.some.injEq] at ha hb
        rw [← ha, ← hb, ihr hx2 hy2]
        have u1 := tileLoop_mono _ _ _ _ _ hx1 (max f1 f2) (Nat.le_max_left _ _)
        have u2 := tileLoop_mono _ _ _ _ _ hy1 (max f1 f2) (Nat.le_max_right _ _)
        rw [u1] at u2
        simp only [Option.some.injEq] at u2
        rw [u2]
      · simp at hb
    · simp at ha

/-- **C45**, for the blocks that the sender makes of a file (`C15_fresh_file`): a file that
the receiver does not have, or has in a larger size.  If of every block every byte was
reported as written by some attempt, the destination equals the source. -/
theorem C45_fresh (o : DOpts) (prev : Option FileChunksInfo) (q : Nat) (f0 f : Option Bytes) (src : Bytes) (s : FC) (h : List FEv)
    (cs : List WCall) (mb next : Int) (hsize : 0 < src.length) (hprev : ∀ i, prev = some i → i.fileSize > src.length)
    (p : FilePlan) (hp : planFile prev src.length next = .ok (some p))
    (bl : List Block) (fuel : Nat) (hbl : fileBlocks mb prev src.length next fuel = .ok (some bl))
    (hr : DReach o p.status src.length q f0 s h f cs) (hopen : ∃ t, .sized q t true ∈ h ∨ .opened q t true ∈ h)
    (as : List Attempt) (has : ∀ a ∈ as, a.Of src)
    (hcs : ∀ c ∈ cs, ∃ a ∈ as, c ∈ a.calls) (hall : ∀ a ∈ as, ∀ c ∈ a.calls, c ∈ cs)
    (hblocks : ∀ b ∈ bl, ∀ j : Nat, b.offset ≤ j → (j : Int) < b.offset + b.size →
      ∃ a ∈ as, a.offset ≤ j ∧ j < a.offset + a.written) : f = some src := by
  obtain ⟨s0, s2, s3, s1⟩ := C15_status prev src.length next p hp
  have hno : ¬ (p.status = EXISTS_CORRECT_SIZE ∨ p.status = EXISTS_TOO_SMALL) := by
    rintro (hx | hx)
    · obtain ⟨i, hi, he⟩ := s1.1 hx; have := hprev i hi; omega
    · obtain ⟨i, hi, he⟩ := s3.1 hx; have := hprev i hi; omega
  refine C45_equal o p.status q f0 f src s h cs hr hopen (fun hx => absurd hx hno) as has hcs hall (fun j hj => Or.inl ?_)
  obtain ⟨fuel', l, e1, e2, _⟩ := C15_fresh_file mb prev src.length next (by omega) hprev
  have hl : l = bl := by
    unfold fileBlocks at e1 hbl
    rw [hp] at e1 hbl
    simp only [Except.ok.injEq] at e1 hbl
    exact tileAll_fuel_unique e1 hbl
  subst hl
  obtain ⟨b, hb, h1, h2⟩ := (e2 j).2 ⟨by omega, by omega⟩
  exact hblocks b hb j h1 h2

/-- **C45**, for a file of which an earlier session received the ranges `l`
(`C15_resumed_file`): the sender sends the rest only.  If those ranges hold the bytes of the
source, and of every block every byte was reported as written by some attempt, the
destination equals the source. -/
theorem C45_resumed (o : DOpts) (info : FileChunksInfo) (l sorted : List Interval) (hv : Valid l)
    (h0 : ∀ i ∈ l, 0 ≤ i.start) (hsort : IsSortOf sorted l) (hmerged : info.chunks = mergeSorted sorted)
    (hin : ∀ i ∈ l, i.stop ≤ info.fileSize) (q : Nat) (b0 : Bytes) (f : Option Bytes) (src : Bytes) (s : FC) (h : List FEv)
    (cs : List WCall) (mb next : Int) (hsize : 0 < src.length) (hsz : info.fileSize ≤ src.length)
    (hb0 : b0.length ≤ src.length) (hkept : ∀ j : Nat, j < src.length → Covered l j → b0[j]? = src[j]?)
    (p : FilePlan) (hp : planFile (some info) src.length next = .ok (some p))
    (bl : List Block) (fuel : Nat) (hbl : fileBlocks mb (some info) src.length next fuel = .ok (some bl))
    (hr : DReach o p.status src.length q (some b0) s h f cs) (hopen : ∃ t, .sized q t true ∈ h ∨ .opened q t true ∈ h)
    (as : List Attempt) (has : ∀ a ∈ as, a.Of src)
    (hcs : ∀ c ∈ cs, ∃ a ∈ as, c ∈ a.calls) (hall : ∀ a ∈ as, ∀ c ∈ a.calls, c ∈ cs)
    (hblocks : ∀ b ∈ bl, ∀ j : Nat, b.offset ≤ j → (j : Int) < b.offset + b.size →
      ∃ a ∈ as, a.offset ≤ j ∧ j < a.offset + a.written) : f = some src := by
  obtain ⟨s0, s2, s3, s1⟩ := C15_status (some info) src.length next p hp
  have hst : p.status = EXISTS_CORRECT_SIZE ∨ p.status = EXISTS_TOO_SMALL := by
    by_cases he : info.fileSize = src.length
    · exact Or.inl (s1.2 ⟨info, rfl, he⟩)
    · exact Or.inr (s3.2 ⟨info, rfl, by omega⟩)
  refine C45_equal o p.status q (some b0) f src s h cs hr hopen ?_ as has hcs hall ?_
  · rintro _ b hb
    cases hb
    exact hb0
  · intro j hj
    by_cases hc : Covered l j
    · exact Or.inr ⟨hst, b0, rfl, hkept j hj hc⟩
    · left
      obtain ⟨fuel', l', e1, e2, _⟩ := C15_resumed_file mb info l sorted hv h0 hsort hmerged hin src.length next hsz (by omega)
      have hl : l' = bl := by
        unfold fileBlocks at e1 hbl
        rw [hp] at e1 hbl
        simp only [Except.ok.injEq] at e1 hbl
        exact tileAll_fuel_unique e1 hbl
      subst hl
      obtain ⟨b, hb, h1, h2⟩ := (e2 j).2 ⟨by omega, by omega, hc⟩
      exact hblocks b hb j h1 h2

/-! ### A case -/

/-- The second block first, then the first block, whose connection breaks, then the rest of
it. -/
def exAttempts : List Attempt :=
  [⟨3, 2, { offset := 3, dataSize := 2, fd := some 3, nextSync := 3 }, -1, [([4, 5], [.wrote 1, .eintr, .wrote 9], true)]⟩,
   ⟨0, 3, { offset := 0, dataSize := 3, fd := some 0, nextSync := 0 }, -1,
     [([1, 2], [.wrote 2], true), ([3], [.err], true)]⟩,
   ⟨1, 2, { offset := 1, dataSize := 2, fd := some 1, nextSync := 1 }, -1, [([2, 3], [.wrote 2], true)]⟩]

example : exAttempts.map (·.calls) = [[(3, [4]), (4, [5])], [(0, [1, 2])], [(1, [2, 3])]] ∧
    exAttempts.map (·.written) = [2, 2, 2] := by decide +kernel

/-- Thread 0 creates and sizes the file, thread 1 finds it and opens it; both write. -/
theorem exReach : ∃ s h, DReach ⟨false, false, false⟩ NOT_EXISTS 5 7 none s h (some [1, 2, 3, 4, 5])
    [(3, [4]), (0, [1, 2]), (4, [5]), (1, [2, 3])] ∧ .sized 7 0 true ∈ h ∧ .opened 7 1 true ∈ h := by
  have r1 := DReach.step (o := ⟨false, false, false⟩) (status := NOT_EXISTS) (size := 5) (q := 7) (f0 := none)
    (.enter 0 7 false) .init rfl (by rintro t c h; cases h; decide) rfl
  have r2 := DReach.step (f' := some []) (.go 0 true) r1 rfl (by rintro t c h; cases h)
    (by simp only [Effects, FEv.Effect, if_true]; intro _; exact ⟨by decide +kernel, by simp⟩)
  have r3 := DReach.step (.go 0 true) r2 rfl (by rintro t c h; cases h) rfl
  have r4 := DReach.step (.enter 1 7 false) r3 rfl (by rintro t c h; cases h; decide) rfl
  have r5 := DReach.step (f' := some []) (.go 1 true) r4 rfl (by rintro t c h; cases h) ⟨rfl, by simp⟩
  have w1 := DReach.write 1 (3, [4]) r5 (Or.inr (by simp))
  have w2 := DReach.write 0 (0, [1, 2]) w1 (Or.inl (by simp))
  have w3 := DReach.write 1 (4, [5]) w2 (Or.inr (by simp))
  have w4 := DReach.write 0 (1, [2, 3]) w3 (Or.inl (by simp))
  exact ⟨_, _, w4, by simp, by simp⟩

/-- An old file is overwritten; only a later part has arrived (`C45_nothing_old`). -/
example : ∃ s h, DReach ⟨false, true, false⟩ NOT_EXISTS 5 7 (some [9, 9, 9, 9, 9, 9]) s h (some [0, 0, 0, 4]) [(3, [4])] ∧
    .sized 7 0 true ∈ h := by
  have r1 := DReach.step (o := ⟨false, true, false⟩) (status := NOT_EXISTS) (size := 5) (q := 7) (f0 := some [9, 9, 9, 9, 9, 9])
    (.enter 0 7 false) .init rfl (by rintro t c h; cases h; decide) rfl
  have r2 := DReach.step (f' := some []) (.go 0 true) r1 rfl (by rintro t c h; cases h)
    (by simp only [Effects, FEv.Effect, if_true]; intro _; exact ⟨by decide +kernel, by simp⟩)
  have w1 := DReach.write 0 (3, [4]) r2 (Or.inl (by simp))
  exact ⟨_, _, w1, by simp⟩

/-- `exReach` meets the hypotheses of `C45_equal`. -/
example : (∀ a ∈ exAttempts, a.Of [1, 2, 3, 4, 5]) ∧
    (∀ j, j < 5 → ∃ a ∈ exAttempts, a.offset ≤ j ∧ j < a.offset + a.written) := by
  unfold Attempt.Of
  decide +kernel

end Wdt
