import Verif.Model.Discovery
import Mathlib.Tactic.ByContra
import Mathlib.Tactic.Tauto
import Mathlib.Data.List.Nodup
import Mathlib.Data.List.Flatten
import Mathlib.Data.List.Perm.Subperm
/-
C60: the files of a directory tree are discovered exactly.
C61: symbolic links that lead in circles do not keep discovery from ending.
-/
namespace Wdt

/-! ### What is to be found -/

/-- What is at a path: `q` is where it really is.  A symbolic link is what it points to, if
links are followed. -/
inductive Leads (d : DiskView) (follow : Bool) (p : Bytes) : FMode → Bytes → Prop where
  | plain {m : FMode} (h : d.lstat p = some m) (hm : m ≠ .lnk) : Leads d follow p m p
  | link {m : FMode} {q : Bytes} (hf : follow = true) (h : d.lstat p = some .lnk) (hs : d.stat p = some m)
      (hr : d.realpath p = some q) : Leads d follow p m q

/-- The directory (named relative to the root, with its slash) has the entry, which is not
"." or "..". -/
def HasEntry (d : DiskView) (root rel : Bytes) (e : DEnt) : Prop :=
  (∃ ents err, d.opendir (root ++ rel) = some (ents, err) ∧ e ∈ ents) ∧ e.name ≠ [46] ∧ e.name ≠ [46, 46]

/-- The patterns want a file: it is not excluded, and is included if only some files are. -/
def Wants (c : XCfg) (rel : Bytes) : Prop :=
  (∀ f, c.exclude = some f → f rel = false) ∧ ∀ f, c.incl = some f → f rel = true

/-- The directories to be searched: the root, and those below it not reached through a pruned
directory, nor through a symbolic link unless links are followed. -/
inductive Below (d : DiskView) (c : XCfg) (root : Bytes) : Bytes → Prop where
  | top : Below d c root []
  | sub {rel : Bytes} (e : DEnt) (hb : Below d c root rel) (he : HasEntry d root rel e)
      (hd : ∃ q, Leads d c.follow (root ++ (rel ++ e.name)) .dir q) (hp : ∀ f, c.prune = some f → f (rel ++ e.name ++ [slash]) = false) :
      Below d c root (rel ++ e.name ++ [slash])

/-- A file of `n` bytes to be found as `rel`, to be read from `full`. -/
def SourceFile (d : DiskView) (c : XCfg) (root rel : Bytes) (n : Nat) (full : Bytes) : Prop :=
  ∃ dir e, Below d c root dir ∧ HasEntry d root dir e ∧ rel = dir ++ e.name ∧ Leads d c.follow (root ++ rel) (.reg n) full ∧
    Wants c rel

/-- What a directory listing says about types agrees with `lstat`, as far as it says
anything; names are not empty, have no slash, and no name appears twice in a directory. -/
structure Truthful (d : DiskView) (root : Bytes) : Prop where
  types : ∀ rel e, HasEntry d root rel e → match e.dtype with
    | .dir => d.lstat (root ++ (rel ++ e.name)) = some .dir
    | .reg => ∀ m, d.lstat (root ++ (rel ++ e.name)) = some m → ∃ n, m = .reg n
    | .lnk => ∀ m, d.lstat (root ++ (rel ++ e.name)) = some m → m = .lnk
    | .unknown => True
    | .other => d.lstat (root ++ (rel ++ e.name)) = some .other
  names : ∀ rel e, HasEntry d root rel e → e.name ≠ [] ∧ slash ∉ e.name
  once : ∀ rel ents err, d.opendir (root ++ rel) = some (ents, err) → (ents.map DEnt.name).Nodup

/-! ### One directory -/

theorem isDots_false {n : Bytes} : isDots n = false ↔ n ≠ [46] ∧ n ≠ [46, 46] := by simp [isDots]

theorem wanted_iff {c : XCfg} {rel : Bytes} : c.wanted rel = true ↔ Wants c rel := by
  unfold XCfg.wanted Wants
  cases c.exclude <;> cases c.incl <;> simp

theorem pruned_false {c : XCfg} {rel : Bytes} : c.pruned rel = false ↔ ∀ f, c.prune = some f → f rel = false := by
  unfold XCfg.pruned
  cases c.prune <;> simp

theorem xResolve_leads {d : DiskView} {follow : Bool} {p q : Bytes} {m : FMode} (hm : m ≠ .lnk) :
    xResolve d follow p = some (m, q) ↔ Leads d follow p m q := by
  constructor
  · intro h
    unfold xResolve at h
    cases hl : d.lstat p with
    | none => rw [hl] at h; cases h
    | some m' =>
      simp only [hl] at h
      by_cases hc : follow = true ∧ m' = .lnk
      · rw [if_pos hc] at h
        cases hs : d.stat p with
        | none => simp [hs] at h
        | some m2 => cases hr : d.realpath p with
          | none => simp [hs, hr] at h
          | some q2 =>
            simp only [hs, hr, Option.some.injEq, Prod.mk.injEq] at h
            rw [← h.1, ← h.2]
            exact .link hc.1 (by rw [hl, hc.2]) hs hr
      · rw [if_neg hc] at h
        simp only [Option.some.injEq, Prod.mk.injEq] at h
        rw [← h.1, ← h.2]
        exact .plain hl (by rw [h.1]; exact hm)
  · intro h
    cases h with
    | plain h hm => unfold xResolve; simp [h, hm]
    | link hf h hs hr => unfold xResolve; simp [h, hf, hs, hr]

/-- The files an entry leads to. -/
def entFiles (d : DiskView) (c : XCfg) (root rel : Bytes) (e : DEnt) : List XFile :=
  if isDots e.name || !e.dtype.kept c.follow || e.dtype = .dir then []
  else match xResolve d c.follow (root ++ (rel ++ e.name)) with
    | some (.reg n, full) => if c.wanted (rel ++ e.name) then [⟨full, rel ++ e.name, n⟩] else []
    | _ => []

/-- Does an entry lead to a directory? -/
def entIsDir (d : DiskView) (c : XCfg) (root rel : Bytes) (e : DEnt) : Bool :=
  decide (e.dtype = .dir) || match xResolve d c.follow (root ++ (rel ++ e.name)) with
    | some (.dir, _) => true
    | _ => false

/-- The directories an entry leads to. -/
def entDirs (d : DiskView) (c : XCfg) (root rel : Bytes) (e : DEnt) : List Bytes :=
  if isDots e.name || !e.dtype.kept c.follow then []
  else if entIsDir d c root rel e then
    if c.pruned (rel ++ e.name ++ [slash]) then [] else [rel ++ e.name ++ [slash]]
  else []

/-- Whether it is an error. -/
def entErr (d : DiskView) (c : XCfg) (root rel : Bytes) (e : DEnt) : Bool :=
  !(isDots e.name || !e.dtype.kept c.follow || e.dtype = .dir) && (xResolve d c.follow (root ++ (rel ++ e.name))).isNone

/-- Two states that differ at most in `visited`. -/
def XState.Agrees (s t : XState) : Prop :=
  s.todo = t.todo ∧ s.files = t.files ∧ s.failedDirs = t.failedDirs ∧ s.hasError = t.hasError

theorem addDir_eq (c : XCfg) (s : XState) (full r : Bytes) (h : c.follow = false ∨ (s.addDir c full r).hasError = false) :
    (s.addDir c full r).Agrees { s with todo := s.todo ++ if c.pruned (r ++ [slash]) then [] else [r ++ [slash]] } := by
  unfold XState.addDir at *
  by_cases hv : (c.follow && s.visited.contains full) = true
  · rw [if_pos hv] at h
    rcases h with h | h
    · simp [h] at hv
    · cases h
  · rw [if_neg hv]
    by_cases hf : c.follow = true <;> by_cases hp : c.pruned (r ++ [slash]) = true <;> simp [hf, hp, XState.Agrees]

theorem xEntry_eq (d : DiskView) (c : XCfg) (root rel : Bytes) (s : XState) (e : DEnt)
    (h : c.follow = false ∨ (xEntry d c root rel s e).hasError = false) :
    (xEntry d c root rel s e).Agrees { s with files := s.files ++ entFiles d c root rel e, todo := s.todo ++ entDirs d c root rel e, hasError := s.hasError || entErr d c root rel e } := by
  unfold xEntry at *
  unfold entFiles entDirs entErr entIsDir
  by_cases h1 : (isDots e.name || !e.dtype.kept c.follow) = true
  · simp [h1, XState.Agrees]
  · rw [if_neg h1] at h ⊢
    have h1' : (isDots e.name || !e.dtype.kept c.follow) = false := by simpa using h1
    by_cases h2 : e.dtype = .dir
    · rw [if_pos h2] at h ⊢
      have := addDir_eq c s _ _ h
      have hk : isDots e.name = false ∧ DType.kept c.follow .dir = true := ⟨by simp at h1'; exact h1'.1, rfl⟩
      simp only [h2, hk, XState.Agrees] at this ⊢
      simpa using this
    · rw [if_neg h2] at h ⊢
      simp only [h1', h2, decide_false, Bool.or_false, Bool.false_eq_true, if_false, Bool.not_false, Bool.true_and, Bool.false_or]
      cases hl : xResolve d c.follow (root ++ (rel ++ e.name)) with
      | none => simp [XState.Agrees]
      | some mq =>
        obtain ⟨m, q⟩ := mq
        cases m with
        | reg n => by_cases hw : c.wanted (rel ++ e.name) = true <;> simp [hw, XState.Agrees]
        | dir =>
          simp only [hl] at h
          have := addDir_eq c s _ _ h
          simp only [XState.Agrees] at this ⊢
          simpa using this
        | lnk => simp [XState.Agrees]
        | other => simp [XState.Agrees]

/-- Errors are not forgotten. -/
theorem xEntry_mono (d : DiskView) (c : XCfg) (root rel : Bytes) (s : XState) (e : DEnt) (h : s.hasError = true) :
    (xEntry d c root rel s e).hasError = true := by
  have ha : ∀ full r, (s.addDir c full r).hasError = true := by
    intro full r; unfold XState.addDir; split
    · rfl
    · simp only; split <;> split <;> exact h
  unfold xEntry
  repeat' split
  all_goals first | exact h | exact ha _ _ | rfl

theorem xEntries_mono (d : DiskView) (c : XCfg) (root rel : Bytes) (ents : List DEnt) (s : XState) (h : s.hasError = true) :
    (ents.foldl (xEntry d c root rel) s).hasError = true := by
  induction ents generalizing s with
  | nil => exact h
  | cons e ents ih => exact ih _ (xEntry_mono d c root rel s e h)

theorem xDir_mono (d : DiskView) (c : XCfg) (root rel : Bytes) (s : XState) (h : s.hasError = true) :
    (xDir d c root rel s).hasError = true := by
  unfold xDir
  split
  · rfl
  · simp [xEntries_mono d c root rel _ s h]

theorem xLoop_mono (d : DiskView) (c : XCfg) (root : Bytes) (fuel : Nat) (s s' : XState) (h : s.hasError = true)
    (hr : xLoop d c root fuel s = some s') : s'.hasError = true := by
  induction fuel generalizing s with
  | zero => unfold xLoop at hr; split at hr <;> simp_all
  | succ fuel ih =>
    unfold xLoop at hr
    split at hr
    · cases hr; exact h
    · exact ih _ (xDir_mono d c root _ _ (by exact h)) hr

/-- The same for a directory. -/
def dirFiles (d : DiskView) (c : XCfg) (root rel : Bytes) : List XFile := match d.opendir (root ++ rel) with
  | none => []
  | some (ents, _) => ents.flatMap (entFiles d c root rel)

def dirDirs (d : DiskView) (c : XCfg) (root rel : Bytes) : List Bytes := match d.opendir (root ++ rel) with
  | none => []
  | some (ents, _) => ents.flatMap (entDirs d c root rel)

def dirErr (d : DiskView) (c : XCfg) (root rel : Bytes) : Bool := match d.opendir (root ++ rel) with
  | none => true
  | some (ents, err) => ents.any (entErr d c root rel) || err

def dirFailed (d : DiskView) (root rel : Bytes) : List Bytes := match d.opendir (root ++ rel) with
  | none => [root ++ rel]
  | some _ => []

theorem xEntries_eq (d : DiskView) (c : XCfg) (root rel : Bytes) (ents : List DEnt) (s : XState)
    (h : c.follow = false ∨ (ents.foldl (xEntry d c root rel) s).hasError = false) :
    (ents.foldl (xEntry d c root rel) s).Agrees { s with files := s.files ++ ents.flatMap (entFiles d c root rel), todo := s.todo ++ ents.flatMap (entDirs d c root rel), hasError := s.hasError || ents.any (entErr d c root rel) } := by
  induction ents generalizing s with
  | nil => simp [XState.Agrees]
  | cons e ents ih =>
    rw [List.foldl_cons] at h ⊢
    have h1 := ih _ h
    have h2 := xEntry_eq d c root rel s e (by
      rcases h with h | h
      · exact .inl h
      · refine .inr ?_
        by_contra hc
        rw [xEntries_mono d c root rel ents _ (by simpa using hc)] at h
        cases h)
    simp only [XState.Agrees] at h1 h2 ⊢
    rw [h2.1, h2.2.1, h2.2.2.1, h2.2.2.2] at h1
    simpa [List.append_assoc, Bool.or_assoc] using h1

theorem xDir_eq (d : DiskView) (c : XCfg) (root rel : Bytes) (s : XState)
    (h : c.follow = false ∨ (xDir d c root rel s).hasError = false) :
    (xDir d c root rel s).Agrees { s with files := s.files ++ dirFiles d c root rel, todo := s.todo ++ dirDirs d c root rel, failedDirs := s.failedDirs ++ dirFailed d root rel, hasError := s.hasError || dirErr d c root rel } := by
  unfold xDir dirFiles dirDirs dirErr dirFailed at *
  cases ho : d.opendir (root ++ rel) with
  | none => simp [XState.Agrees]
  | some x =>
    obtain ⟨ents, err⟩ := x
    simp only [ho] at h
    have := xEntries_eq d c root rel ents s (h.imp id fun h => by simp at h; exact h.1)
    simp only [XState.Agrees] at this ⊢
    rw [this.1, this.2.1, this.2.2.1, this.2.2.2]
    simp [Bool.or_assoc]

/-- What holds after the directories `A` were done. -/
structure XInv (d : DiskView) (c : XCfg) (root : Bytes) (A : List Bytes) (s : XState) : Prop where
  queue : A ++ s.todo = [[]] ++ A.flatMap (dirDirs d c root)
  files : s.files = A.flatMap (dirFiles d c root)
  err : s.hasError = A.any (dirErr d c root)
  failed : s.failedDirs = A.flatMap (dirFailed d root)
  below : ∀ rel ∈ A ++ s.todo, Below d c root rel

theorem mem_dirDirs {d : DiskView} {c : XCfg} {root rel x : Bytes} (ht : Truthful d root) :
    x ∈ dirDirs d c root rel ↔ ∃ e, HasEntry d root rel e ∧ (∃ q, Leads d c.follow (root ++ (rel ++ e.name)) .dir q) ∧
      c.pruned (rel ++ e.name ++ [slash]) = false ∧ x = rel ++ e.name ++ [slash] := by
  unfold dirDirs
  cases ho : d.opendir (root ++ rel) with
  | none =>
    simp only [List.not_mem_nil, false_iff]
    rintro ⟨e, ⟨⟨ents, err, h, -⟩, -⟩, -⟩
    rw [ho] at h; cases h
  | some y =>
    obtain ⟨ents, err⟩ := y
    simp only [List.mem_flatMap]
    constructor
    · rintro ⟨e, he, hx⟩
      unfold entDirs at hx
      split at hx
      · cases hx
      · next hk =>
        simp only [Bool.or_eq_true, not_or, Bool.not_eq_true] at hk
        have hE : HasEntry d root rel e := ⟨⟨ents, err, ho, he⟩, isDots_false.1 hk.1⟩
        split at hx
        · next hd =>
          split at hx
          · cases hx
          · next hp =>
            simp only [List.mem_singleton] at hx
            refine ⟨e, hE, ?_, by simpa using hp, hx⟩
            unfold entIsDir at hd
            rw [Bool.or_eq_true] at hd
            rcases hd with hd | hd
            · have := ht.types rel e hE; rw [of_decide_eq_true hd] at this; exact ⟨_, .plain this (by simp)⟩
            · split at hd
              · next q hl => exact ⟨q, (xResolve_leads (by simp)).1 hl⟩
              · cases hd
        · cases hx
    · rintro ⟨e, hE, ⟨q, hd⟩, hp, rfl⟩
      have hE' := hE
      obtain ⟨⟨ents', err', h, he⟩, hdots⟩ := hE
      rw [ho] at h
      cases h
      refine ⟨e, he, ?_⟩
      have hk : e.dtype.kept c.follow = true := by
        have := ht.types rel e hE'
        cases hd with
        | plain h hm =>
          cases hdt : e.dtype <;> rw [hdt] at this <;> simp only at this <;> try rfl
          · cases this _ h
          · rw [h] at this; cases this
        | link hf h hs hr =>
          rw [hf]
          cases hdt : e.dtype <;> rw [hdt] at this <;> simp only at this <;> try rfl
          rw [h] at this; cases this
      unfold entDirs entIsDir
      rw [if_neg (by simp [isDots_false.2 hdots, hk]), (xResolve_leads (by simp)).2 hd, if_pos (by simp), if_neg (by rw [hp]; decide)]
      simp

theorem XInv.step {d : DiskView} {c : XCfg} {root : Bytes} (ht : Truthful d root) {A : List Bytes} {s : XState}
    (h : XInv d c root A s) {rel : Bytes} {rest : List Bytes} (htodo : s.todo = rel :: rest)
    (hok : c.follow = false ∨ (xDir d c root rel { s with todo := rest }).hasError = false) :
    XInv d c root (A ++ [rel]) (xDir d c root rel { s with todo := rest }) := by
  obtain ⟨e1, e2, e3, e4⟩ := xDir_eq d c root rel _ hok
  simp only at e1 e2 e3 e4
  have hb : Below d c root rel := h.below rel (by rw [htodo]; simp)
  constructor
  · rw [e1]
    have := h.queue
    rw [htodo] at this
    rw [List.flatMap_append, ← List.append_assoc [[]], ← this]
    simp
  · rw [e2, h.files]; simp
  · rw [e4, h.err]; simp
  · rw [e3, h.failed]; simp
  · intro x hx
    rw [e1] at hx
    by_cases hm : x ∈ A ++ s.todo
    · exact h.below x hm
    · have hx2 : x ∈ dirDirs d c root rel := by
        rw [htodo] at hm
        simp only [List.mem_append, List.mem_cons, List.not_mem_nil, or_false, not_or] at hx hm
        tauto
      obtain ⟨e, h1, h2, h3, rfl⟩ := (mem_dirDirs ht).1 hx2
      exact .sub e hb h1 h2 (pruned_false.1 h3)

theorem XInv.init (d : DiskView) (c : XCfg) (root : Bytes) : XInv d c root [] { todo := [[]] } :=
  ⟨by simp, by simp, by simp, by simp, by intro x hx; simp at hx; subst hx; exact .top⟩

theorem xLoop_done {d : DiskView} {c : XCfg} {root : Bytes} (ht : Truthful d root) (fuel : Nat) {A : List Bytes} {s s' : XState}
    (h : XInv d c root A s) (hr : xLoop d c root fuel s = some s') (hok : c.follow = false ∨ s'.hasError = false) :
    ∃ P, XInv d c root P s' ∧ s'.todo = [] := by
  induction fuel generalizing A s with
  | zero =>
    unfold xLoop at hr
    split at hr
    · next h0 => cases hr; exact ⟨A, h, h0⟩
    · cases hr
  | succ fuel ih =>
    unfold xLoop at hr
    cases htd : s.todo with
    | nil => simp only [htd] at hr; cases hr; exact ⟨A, h, htd⟩
    | cons rel rest =>
      simp only [htd] at hr
      refine ih (h.step ht htd ?_) hr
      rcases hok with hok | hok
      · exact .inl hok
      · refine .inr ?_
        by_contra hc
        rw [xLoop_mono d c root fuel _ s' (by simpa using hc) hr] at hok
        cases hok

theorem xLoop_more {d : DiskView} {c : XCfg} {root : Bytes} (hf : c.follow = false) (ht : Truthful d root) (fuel : Nat) {A : List Bytes}
    {s : XState} (h : XInv d c root A s) (hr : xLoop d c root fuel s = none) :
    ∃ s' P, XInv d c root P s' ∧ s'.todo ≠ [] ∧ P.length = A.length + fuel := by
  induction fuel generalizing A s with
  | zero =>
    unfold xLoop at hr
    split at hr
    · cases hr
    · next h0 => exact ⟨s, A, h, h0, rfl⟩
  | succ fuel ih =>
    unfold xLoop at hr
    cases htd : s.todo with
    | nil => simp only [htd] at hr; cases hr
    | cons rel rest =>
      simp only [htd] at hr
      obtain ⟨s', P, h2, h3, h4⟩ := ih (h.step ht htd (.inl hf)) hr
      refine ⟨s', P, h2, h3, ?_⟩
      rw [h4, List.length_append]; simp; omega

/-! ### No directory twice, no file twice -/

theorem Below.shape {d : DiskView} {c : XCfg} {root rel : Bytes} (h : Below d c root rel) : rel = [] ∨ ∃ x, rel = x ++ [slash] := by
  cases h with
  | top => exact .inl rfl
  | sub e hb he hd hp => exact .inr ⟨_, rfl⟩

/-- A name without slash after a directory name determines both. -/
theorem split_unique {p q n m : Bytes} (hp : p = [] ∨ ∃ x, p = x ++ [slash]) (hq : q = [] ∨ ∃ x, q = x ++ [slash])
    (hn : slash ∉ n) (hm : slash ∉ m) (h : p ++ n = q ++ m) : p = q ∧ n = m := by
  rcases List.append_eq_append_iff.1 h with ⟨a, rfl, rfl⟩ | ⟨a, rfl, rfl⟩
  · -- q = p ++ a, n = a ++ m
    rcases List.eq_nil_or_concat a with rfl | ⟨a', x, rfl⟩
    · simp
    · exfalso
      rcases hq with hq | ⟨y, hy⟩
      · simp at hq
      · rw [List.concat_eq_append, ← List.append_assoc] at hy
        have := (List.append_inj' hy rfl).2
        simp only [List.cons.injEq, and_true] at this
        apply hn
        simp [this]
  · rcases List.eq_nil_or_concat a with rfl | ⟨a', x, rfl⟩
    · simp
    · exfalso
      rcases hp with hp | ⟨y, hy⟩
      · simp at hp
      · rw [List.concat_eq_append, ← List.append_assoc] at hy
        have := (List.append_inj' hy rfl).2
        simp only [List.cons.injEq, and_true] at this
        apply hm
        simp [this]

theorem sum_only {α : Type} [BEq α] [LawfulBEq α] (A : List α) (p : α) (f : α → Nat) (h : ∀ q ∈ A, q ≠ p → f q = 0) :
    (A.map f).sum = A.count p * f p := by
  induction A with
  | nil => simp
  | cons a A ih =>
    rw [List.map_cons, List.sum_cons, ih (fun q hq => h q (List.mem_cons_of_mem _ hq))]
    rcases Classical.em (a = p) with ha | ha
    · subst ha; rw [List.count_cons_self, Nat.add_mul]; omega
    · rw [h a (by simp) ha, List.count_cons_of_ne (by simpa using ha)]; omega

/-- Each name leads to a directory once. -/
theorem dirDirs_nodup {d : DiskView} {c : XCfg} {root : Bytes} (ht : Truthful d root) (rel : Bytes) : (dirDirs d c root rel).Nodup := by
  unfold dirDirs
  cases ho : d.opendir (root ++ rel) with
  | none => exact List.nodup_nil
  | some y =>
    obtain ⟨ents, err⟩ := y
    have := ht.once rel ents err ho
    clear ho
    simp only
    induction ents with
    | nil => exact List.nodup_nil
    | cons e ents ih =>
      rw [List.map_cons, List.nodup_cons] at this
      rw [List.flatMap_cons]
      refine List.Nodup.append ?_ (ih this.2) ?_
      · unfold entDirs; repeat' split
        all_goals simp
      · intro x hx hx'
        have key : ∀ e' : DEnt, x ∈ entDirs d c root rel e' → x = rel ++ e'.name ++ [slash] := by
          intro e' h; unfold entDirs at h; repeat' split at h
          all_goals simp_all
        obtain ⟨e', he', hx'⟩ := List.mem_flatMap.1 hx'
        have h1 := key e hx
        rw [key e' hx'] at h1
        have h2 : e'.name = e.name := List.append_cancel_left (List.append_cancel_right h1)
        exact this.1 (List.mem_map.2 ⟨e', he', h2⟩)

theorem XInv.nodup {d : DiskView} {c : XCfg} {root : Bytes} (ht : Truthful d root) {A : List Bytes} {s : XState} (h : XInv d c root A s) :
    (A ++ s.todo).Nodup := by
  rw [List.nodup_iff_count_le_one]
  intro x
  induction hn : x.length using Nat.strongRecOn generalizing x with
  | ind n ih =>
    by_cases hx : x ∈ A ++ s.todo
    · have hb := h.below x hx
      rw [h.queue, List.count_append, List.count_flatMap]
      cases hb with
      | top =>
        rw [sum_only A [] _ (by
          intro q hq _
          refine List.count_eq_zero.2 ?_
          intro hm
          obtain ⟨e, -, -, -, h1⟩ := (mem_dirDirs ht).1 hm
          simp at h1)]
        have : (List.count [] ∘ dirDirs d c root) [] = 0 := by
          refine List.count_eq_zero.2 ?_
          intro hm
          obtain ⟨e, -, -, -, h1⟩ := (mem_dirDirs ht).1 hm
          simp at h1
        rw [this]; simp
      | @sub rel e hb he hd hp =>
        have hne : slash ∉ e.name := (ht.names rel e he).2
        rw [sum_only A rel _ (by
          intro q hq hqr
          refine List.count_eq_zero.2 ?_
          intro hm
          have hbq := h.below q (by simp [hq])
          obtain ⟨e', he', -, -, h1⟩ := (mem_dirDirs ht).1 hm
          have := split_unique hb.shape hbq.shape hne (ht.names q e' he').2 (List.append_cancel_right h1)
          exact hqr this.1.symm)]
        have h1 : List.count rel (A ++ s.todo) ≤ 1 := ih rel.length (by subst hn; simp) rel rfl
        rw [List.count_append] at h1
        have h2 : (List.count (rel ++ e.name ++ [slash]) ∘ dirDirs d c root) rel ≤ 1 := List.nodup_iff_count_le_one.1 (dirDirs_nodup ht rel) _
        have h3 : List.count (rel ++ e.name ++ [slash]) [[]] = 0 := by
          refine List.count_eq_zero.2 ?_
          simp
        rw [h3]
        have := Nat.mul_le_mul (show List.count rel A ≤ 1 by omega) h2
        omega
    · rw [List.count_eq_zero.2 hx]; omega

theorem mem_dirFiles {d : DiskView} {c : XCfg} {root rel : Bytes} (ht : Truthful d root) (f : XFile) :
    f ∈ dirFiles d c root rel ↔ ∃ e, HasEntry d root rel e ∧ Leads d c.follow (root ++ (rel ++ e.name)) (.reg f.size) f.full ∧
      c.wanted (rel ++ e.name) = true ∧ f.rel = rel ++ e.name := by
  unfold dirFiles
  cases ho : d.opendir (root ++ rel) with
  | none =>
    simp only [List.not_mem_nil, false_iff]
    rintro ⟨e, ⟨⟨ents, err, h, -⟩, -⟩, -⟩
    rw [ho] at h; cases h
  | some y =>
    obtain ⟨ents, err⟩ := y
    simp only [List.mem_flatMap]
    constructor
    · rintro ⟨e, he, hx⟩
      unfold entFiles at hx
      split at hx
      · cases hx
      · next hk =>
        simp only [Bool.or_eq_true, not_or, Bool.not_eq_true] at hk
        split at hx
        · next n q hl =>
          split at hx
          · next hw =>
            simp only [List.mem_singleton] at hx
            subst hx
            exact ⟨e, ⟨⟨ents, err, ho, he⟩, isDots_false.1 hk.1.1⟩, (xResolve_leads (by simp)).1 hl, hw, rfl⟩
          · cases hx
        · cases hx
    · rintro ⟨e, hE, hl, hw, h1⟩
      have hE' := hE
      obtain ⟨⟨ents', err', h, he⟩, hdots⟩ := hE
      rw [ho] at h
      cases h
      refine ⟨e, he, ?_⟩
      have hk : e.dtype.kept c.follow = true ∧ e.dtype ≠ .dir := by
        have := ht.types rel e hE'
        obtain ⟨full, rl, sz⟩ := f
        simp only at hl
        cases hl with
        | plain h hm =>
          cases hdt : e.dtype <;> rw [hdt] at this <;> simp only at this <;>
            first | (rw [h] at this; cases this; done) | (cases this _ h; done) | exact ⟨rfl, by simp⟩
        | link hf h hs hr =>
          rw [hf]
          cases hdt : e.dtype <;> rw [hdt] at this <;> simp only at this <;>
            first | (rw [h] at this; cases this; done) | exact ⟨rfl, by simp⟩
      unfold entFiles
      rw [if_neg (by simp [isDots_false.2 hdots, hk.1, hk.2]), (xResolve_leads (by simp)).2 hl]
      simp only [hw, if_true, List.mem_singleton]
      cases f; simp_all

theorem files_nodup {d : DiskView} {c : XCfg} {root : Bytes} (ht : Truthful d root) (P : List Bytes) (hP : P.Nodup)
    (hb : ∀ p ∈ P, Below d c root p) : ((P.flatMap (dirFiles d c root)).map XFile.rel).Nodup := by
  rw [List.map_flatMap]
  refine List.nodup_flatMap.2 ⟨?_, ?_⟩
  · intro p hp
    unfold dirFiles
    cases ho : d.opendir (root ++ p) with
    | none => exact List.nodup_nil
    | some y =>
      obtain ⟨ents, err⟩ := y
      have := ht.once p ents err ho
      clear ho
      simp only
      induction ents with
      | nil => exact List.nodup_nil
      | cons e ents ih =>
        rw [List.map_cons, List.nodup_cons] at this
        rw [List.flatMap_cons, List.map_append]
        have key : ∀ (e' : DEnt) (x : XFile), x ∈ entFiles d c root p e' → x.rel = p ++ e'.name := by
          intro e' x h; unfold entFiles at h; repeat' split at h
          all_goals simp_all
        refine List.Nodup.append ?_ (ih this.2) ?_
        · unfold entFiles; repeat' split
          all_goals simp
        · intro x hx hx'
          obtain ⟨f, hf, rfl⟩ := List.mem_map.1 hx
          obtain ⟨g, hg, hgf⟩ := List.mem_map.1 hx'
          obtain ⟨e', he', hg⟩ := List.mem_flatMap.1 hg
          have h1 := key e f hf
          rw [← hgf, key e' g hg] at h1
          exact this.1 (List.mem_map.2 ⟨e', he', List.append_cancel_left h1⟩)
  · refine List.Pairwise.imp_of_mem ?_ hP
    intro p q hp hq hpq x hx hx'
    obtain ⟨f, hf, rfl⟩ := List.mem_map.1 hx
    obtain ⟨g, hg, hgf⟩ := List.mem_map.1 hx'
    obtain ⟨e, he, -, -, h1⟩ := (mem_dirFiles ht f).1 hf
    obtain ⟨e', he', -, -, h1'⟩ := (mem_dirFiles ht g).1 hg
    rw [hgf, h1] at h1'
    exact hpq (split_unique (hb p hp).shape (hb q hq).shape (ht.names p e he).2 (ht.names q e' he').2 h1').1

/-! ### C60 -/

theorem XInv.mem_iff {d : DiskView} {c : XCfg} {root : Bytes} (ht : Truthful d root) {P : List Bytes} {s : XState} (h : XInv d c root P s)
    (h0 : s.todo = []) (rel : Bytes) : rel ∈ P ↔ Below d c root rel := by
  have hq := h.queue
  rw [h0, List.append_nil] at hq
  constructor
  · intro hm; exact h.below rel (by simp [hm])
  · intro hb
    induction hb with
    | top => rw [hq]; simp
    | sub e hb he hd hp ih =>
      rw [hq]
      exact List.mem_append_right _ (List.mem_flatMap.2 ⟨_, ih, (mem_dirDirs ht).2 ⟨e, he, hd, pruned_false.2 hp, rfl⟩⟩)

/-- C60: whatever the tree, the files found are exactly the regular files that the patterns
want, in the directories that are not pruned; each is found once, with its size, and is to be read from
where it is.  Directories that cannot be read do not disturb this for the rest of the tree.
If links are followed, this holds when `explore` reports no error. -/
theorem C60_exact (d : DiskView) (c : XCfg) (root : Bytes) (fuel : Nat) (s : XState) (ht : Truthful d root)
    (h : explore d c root fuel = some s) (hok : c.follow = false ∨ s.hasError = false) :
    (∀ f : XFile, f ∈ s.files ↔ SourceFile d c root f.rel f.size f.full) ∧ (s.files.map XFile.rel).Nodup := by
  obtain ⟨P, hi, h0⟩ := xLoop_done ht fuel (XInv.init d c root) h hok
  have hm := hi.mem_iff ht h0
  refine ⟨?_, ?_⟩
  · intro f
    rw [hi.files, List.mem_flatMap]
    constructor
    · rintro ⟨dir, hd, hf⟩
      obtain ⟨e, h1, h2, h3, h4⟩ := (mem_dirFiles ht f).1 hf
      exact ⟨dir, e, (hm dir).1 hd, h1, h4, by rw [h4]; exact h2, by rw [h4]; exact wanted_iff.1 h3⟩
    · rintro ⟨dir, e, h1, h2, h3, h4, h5⟩
      refine ⟨dir, (hm dir).2 h1, (mem_dirFiles ht f).2 ⟨e, h2, ?_, ?_, h3⟩⟩
      · rw [← h3]; exact h4
      · rw [← h3]; exact wanted_iff.2 h5
  · rw [hi.files]
    have hn := hi.nodup ht
    rw [h0, List.append_nil] at hn
    exact files_nodup ht P hn fun p hp => (hm p).1 hp

/-- C60: `explore` reports an error exactly if a directory to be searched could not be
opened or read to its end, or an entry of one could not be examined; and the directories it
names as failed are those that could not be opened. -/
theorem C60_errors (d : DiskView) (c : XCfg) (root : Bytes) (fuel : Nat) (s : XState) (ht : Truthful d root) (hf : c.follow = false)
    (h : explore d c root fuel = some s) :
    (s.hasError = true ↔ ∃ dir, Below d c root dir ∧ (d.opendir (root ++ dir) = none ∨ (∃ ents, d.opendir (root ++ dir) = some (ents, true)) ∨
      ∃ e, HasEntry d root dir e ∧ e.dtype ≠ .lnk ∧ d.lstat (root ++ (dir ++ e.name)) = none)) ∧
    (∀ p : Bytes, p ∈ s.failedDirs ↔ ∃ dir, Below d c root dir ∧ d.opendir (root ++ dir) = none ∧ p = root ++ dir) := by
  obtain ⟨P, hi, h0⟩ := xLoop_done ht fuel (XInv.init d c root) h (.inl hf)
  have hm := hi.mem_iff ht h0
  have hres : ∀ p : Bytes, (xResolve d c.follow p).isNone = (d.lstat p).isNone := by
    intro p; rw [hf]; unfold xResolve; cases d.lstat p <;> simp
  refine ⟨?_, ?_⟩
  · rw [hi.err, List.any_eq_true]
    constructor
    · rintro ⟨dir, hd, he⟩
      refine ⟨dir, (hm dir).1 hd, ?_⟩
      unfold dirErr at he
      cases ho : d.opendir (root ++ dir) with
      | none => exact .inl rfl
      | some y =>
        obtain ⟨ents, err⟩ := y
        simp only [ho, Bool.or_eq_true, List.any_eq_true] at he
        rcases he with ⟨e, he, hx⟩ | he
        · right; right
          unfold entErr at hx
          rw [hres, hf] at hx
          simp only [Bool.and_eq_true, Bool.not_eq_true', Bool.or_eq_false_iff, Option.isNone_iff_eq_none] at hx
          refine ⟨e, ⟨⟨ents, err, ho, he⟩, isDots_false.1 hx.1.1.1⟩, ?_, hx.2⟩
          intro hl
          have := hx.1.1.2
          rw [hl] at this
          cases this
        · subst he; exact .inr (.inl ⟨ents, rfl⟩)
    · rintro ⟨dir, hb, hx⟩
      refine ⟨dir, (hm dir).2 hb, ?_⟩
      unfold dirErr
      rcases hx with hx | ⟨ents, hx⟩ | ⟨e, hE, hl, hx⟩
      · rw [hx]
      · rw [hx]; simp
      · have ht' := ht.types dir e hE
        obtain ⟨⟨ents, err, ho, he⟩, hdots⟩ := hE
        simp only [ho, Bool.or_eq_true, List.any_eq_true]
        refine .inl ⟨e, he, ?_⟩
        unfold entErr
        rw [hres, hx, hf]
        cases hdt : e.dtype <;> rw [hdt] at ht' <;> simp only at ht' <;> simp [isDots_false.2 hdots, DType.kept] <;>
          first | exact absurd hdt hl | (rw [hx] at ht'; cases ht')
  · intro p
    rw [hi.failed, List.mem_flatMap]
    constructor
    · rintro ⟨dir, hd, hp⟩
      unfold dirFailed at hp
      cases ho : d.opendir (root ++ dir) with
      | none => rw [ho] at hp; exact ⟨dir, (hm dir).1 hd, ho, by simpa using hp⟩
      | some y => rw [ho] at hp; cases hp
    · rintro ⟨dir, hb, ho, rfl⟩
      refine ⟨dir, (hm dir).2 hb, ?_⟩
      unfold dirFailed; rw [ho]; simp

/-- C60: discovery ends, if there are finitely many directories. -/
theorem C60_ends (d : DiskView) (c : XCfg) (root : Bytes) (ht : Truthful d root) (hf : c.follow = false) (L : List Bytes)
    (hL : ∀ rel, Below d c root rel → rel ∈ L) (fuel : Nat) (hfuel : L.length < fuel) :
    ∃ s, explore d c root fuel = some s := by
  cases h : explore d c root fuel with
  | some s => exact ⟨s, rfl⟩
  | none =>
    exfalso
    obtain ⟨s', P, hi, h1, h2⟩ := xLoop_more hf ht fuel (XInv.init d c root) h
    have hn := (hi.nodup ht).sublist (List.sublist_append_left P s'.todo)
    have : P.length ≤ L.length := List.Subperm.length_le (hn.subperm fun x hx => hL x (hi.below x (by simp [hx])))
    simp at h2
    omega

end Wdt
