import Verif.Model.Paths
/-
C48: where the files are that the receiver opens, creates or deletes.
-/
namespace Wdt

/-- The components of a path. -/
def comps : Bytes → List Bytes
  | [] => [[]]
  | c :: cs => if c = slash then [] :: comps cs else match comps cs with
    | h :: t => (c :: h) :: t
    | [] => [[c]]

/-- The directory or file that a list of components leads to from a directory, as the
operating system resolves it in the absence of symbolic links: empty components and "."
stay, ".." goes up. -/
def walk : List Bytes → List Bytes → List Bytes
  | at', [] => at'
  | at', c :: cs =>
    if c = [] ∨ c = [46] then walk at' cs
    else if c = [46, 46] then walk at'.dropLast cs
    else walk (at' ++ [c]) cs

/-- Where an absolute path leads. -/
def resolve (p : Bytes) : List Bytes := walk [] (comps p)

theorem comps_ne_nil (p : Bytes) : comps p ≠ [] := by
  cases p with
  | nil => simp [comps]
  | cons c cs =>
    unfold comps
    split
    · simp
    · split <;> simp

theorem comps_slash (a b : Bytes) : comps (a ++ slash :: b) = comps a ++ comps b := by
  induction a with
  | nil => simp [comps]
  | cons c cs ih =>
    simp only [List.cons_append, comps, ih]
    split
    · simp
    · cases h : comps cs with
      | nil => exact absurd h (comps_ne_nil cs)
      | cons x xs => simp

theorem walk_append (at' a b : List Bytes) : walk at' (a ++ b) = walk (walk at' a) b := by
  induction a generalizing at' with
  | nil => rfl
  | cons c cs ih =>
    simp only [List.cons_append, walk]
    split
    · exact ih _
    · split <;> exact ih _

/-- Without ".." one stays below. -/
theorem walk_below (at' cs : List Bytes) (h : [46, 46] ∉ cs) : at' <+: walk at' cs := by
  induction cs generalizing at' with
  | nil => exact List.prefix_rfl
  | cons c cs ih =>
    simp only [List.mem_cons, not_or] at h
    unfold walk
    split
    · exact ih _ h.2
    · rw [if_neg (Ne.symm h.1)]
      exact (List.prefix_append at' [c]).trans (ih _ h.2)

theorem addSlash_ends (root : Bytes) : ∃ r, addSlash root = r ++ [slash] := by
  unfold addSlash
  split
  · rename_i h
    obtain ⟨r, hr⟩ := List.getLast?_eq_some_iff.1 h
    exact ⟨r, hr⟩
  · exact ⟨root, rfl⟩

theorem resolve_addSlash (root : Bytes) : resolve (addSlash root) = resolve root := by
  unfold addSlash
  split
  · rfl
  · unfold resolve
    rw [comps_slash, walk_append]
    simp [comps, walk]

/-- A path below the root. -/
theorem resolve_below (root rel : Bytes) (h : [46, 46] ∉ comps rel) : resolve root <+: resolve (addSlash root ++ rel) := by
  obtain ⟨r, hr⟩ := addSlash_ends root
  rw [← resolve_addSlash root, hr]
  unfold resolve
  rw [List.append_assoc]
  show walk [] (comps (r ++ [slash])) <+: walk [] (comps (r ++ slash :: rel))
  rw [comps_slash, comps_slash, walk_append, walk_append]
  simp only [comps, walk, true_or, if_true]
  exact walk_below _ _ h

theorem cstr_id (p : Bytes) (h : 0 ∉ p) : cstr p = p := by
  unfold cstr
  induction p with
  | nil => rfl
  | cons c cs ih =>
    simp only [List.mem_cons, not_or] at h
    rw [List.takeWhile_cons_of_pos (by simpa using Ne.symm h.1), ih h.2]

/-- A leading part of a name: all of it, or up to a slash. -/
def Leading (pre name : Bytes) : Prop := ∃ suf, name = pre ++ suf ∧ (suf = [] ∨ pre = [] ∨ pre.getLast? = some slash)

theorem leading_comps {pre name : Bytes} (h : Leading pre name) (hd : [46, 46] ∉ comps name) : [46, 46] ∉ comps pre := by
  obtain ⟨suf, rfl, h1 | h1 | h1⟩ := h
  · subst h1; simpa using hd
  · subst h1; simp [comps]
  · obtain ⟨r, rfl⟩ := List.getLast?_eq_some_iff.1 h1
    rw [List.append_assoc] at hd
    have e : comps (r ++ ([slash] ++ suf)) = comps r ++ comps suf := comps_slash r suf
    rw [e] at hd
    rw [comps_slash]
    simp only [List.mem_append, not_or] at hd ⊢
    exact ⟨hd.1, by simp [comps]⟩

theorem parentIdx_spec (dir : Bytes) (n : Nat) : parentIdx dir n ≤ n ∧
    (parentIdx dir n = 0 ∨ (dir.take (parentIdx dir n)).getLast? = some slash) := by
  induction n with
  | zero => simp [parentIdx]
  | succ n ih =>
    unfold parentIdx
    split
    · rename_i h
      refine ⟨Nat.le_refl _, .inr ?_⟩
      have hn : n < dir.length := by
        rcases Nat.lt_or_ge n dir.length with h' | h'
        · exact h'
        · rw [List.getElem?_eq_none h'] at h; cases h
      rw [List.take_add_one, h]
      simp
    · exact ⟨by omega, ih.2⟩

theorem leading_take (name : Bytes) (n m : Nat) : Leading ((name.take n).take (parentIdx (name.take n) m)) (name.take n) := by
  refine ⟨(name.take n).drop (parentIdx (name.take n) m), (List.take_append_drop _ _).symm, ?_⟩
  rcases (parentIdx_spec (name.take n) m).2 with h | h
  · right; left; rw [h]; simp
  · right; right; exact h

theorem Leading.trans {a b c : Bytes} (h1 : Leading a b) (h2 : Leading b c) : Leading a c := by
  obtain ⟨s1, rfl, e1⟩ := h1
  obtain ⟨s2, rfl, e2⟩ := h2
  refine ⟨s1 ++ s2, by simp, ?_⟩
  rcases e1 with rfl | e1 | e1
  · rcases e2 with rfl | e2 | e2
    · left; rfl
    · right; left; simpa using e2
    · right; right; simpa using e2
  · exact .inr (.inl e1)
  · exact .inr (.inr e1)

theorem Leading.refl (a : Bytes) : Leading a a := ⟨[], by simp, .inl rfl⟩

/-- The directories made on the way to `dir` are leading parts of it. -/
theorem createDirs_ops (os : PathOS) (root : Bytes) (force : Bool) (fuel : Nat) (cache : List Bytes) (dir : Bytes)
    (r : List Bytes × List PathOp × Bool) (h : createDirs os root force fuel cache dir = .ok r) :
    ∀ op ∈ r.2.1, ∃ pre, Leading pre dir ∧ op = .mkdir (cstr (fullPath root pre)) := by
  induction fuel generalizing cache dir r with
  | zero => simp [createDirs] at h; subst h; simp
  | succ fuel ih =>
    unfold createDirs at h
    split at h
    · cases h; simp
    · split at h
      · cases h
      · simp only at h
        have hlead : Leading (dir.take (parentIdx dir (dir.length - 1))) dir := by
          have := leading_take dir dir.length (dir.length - 1)
          rwa [List.take_length] at this
        generalize hq : (if parentIdx dir (dir.length - 1) > 0 then
          createDirs os root force fuel cache (dir.take (parentIdx dir (dir.length - 1))) else .ok (cache, [], true)) = q at h
        have hops : ∀ x, q = .ok x → ∀ op ∈ x.2.1, ∃ pre, Leading pre dir ∧ op = .mkdir (cstr (fullPath root pre)) := by
          intro x hx op hop
          rw [hx] at hq
          split at hq
          · obtain ⟨pre, h1, h2⟩ := ih _ _ _ hq op hop
            exact ⟨pre, h1.trans hlead, h2⟩
          · cases hq; simp at hop
        split at h
        · cases h
        · rename_i c ops; cases h; exact hops _ rfl
        · rename_i c ops
          have hcons : ∀ op ∈ ops ++ [.mkdir (cstr (fullPath root dir))], ∃ pre, Leading pre dir ∧ op = .mkdir (cstr (fullPath root pre)) := by
            intro op hop
            rcases List.mem_append.1 hop with h1 | h1
            · exact hops _ rfl op h1
            · simp only [List.mem_singleton] at h1
              exact ⟨dir, .refl dir, h1⟩
          split at h <;> cases h <;> exact hcons

/-- The calls made to create a file. -/
theorem createFile_ops (os : PathOS) (root name : Bytes) (cache : List Bytes) (r : List Bytes × List PathOp × Bool)
    (h : createFile os root name cache = .ok r) :
    ∀ op ∈ r.2.1, ∃ pre, Leading pre name ∧ op.path = cstr (fullPath root pre) := by
  have hdir : Leading (dirPart name) name := by
    have := leading_take name name.length name.length
    unfold dirPart
    rwa [List.take_length] at this
  have hd : ∀ force c x, createDirs os root force (dirPart name).length c (dirPart name) = .ok x →
      ∀ op ∈ x.2.1, ∃ pre, Leading pre name ∧ op.path = cstr (fullPath root pre) := by
    intro force c x hx op hop
    obtain ⟨pre, h1, h2⟩ := createDirs_ops _ _ _ _ _ _ _ hx op hop
    exact ⟨pre, h1.trans hdir, by rw [h2]; rfl⟩
  have htwice : ∀ x, createDirsTwice os root (dirPart name) cache = .ok x →
      ∀ op ∈ x.2.1, ∃ pre, Leading pre name ∧ op.path = cstr (fullPath root pre) := by
    intro x hx
    unfold createDirsTwice at hx
    split at hx
    · cases hx; simp
    · split at hx
      · cases hx
      · rename_i e; cases hx; exact hd _ _ _ e
      · rename_i e
        split at hx
        · cases hx
        · rename_i e2
          cases hx
          intro op hop
          rcases List.mem_append.1 hop with h1 | h1
          · exact hd _ _ _ e op h1
          · exact hd _ _ _ e2 op h1
  have hretry : ∀ c x, createRetry os root name (dirPart name) c = .ok x →
      ∀ op ∈ x.2.1, ∃ pre, Leading pre name ∧ op.path = cstr (fullPath root pre) := by
    intro c x hx
    unfold createRetry at hx
    split at hx
    · cases hx; simp
    · split at hx
      · cases hx
      · rename_i e; cases hx; exact hd _ _ _ e
      · rename_i e
        cases hx
        intro op hop
        rcases List.mem_append.1 hop with h1 | h1
        · exact hd _ _ _ e op h1
        · simp only [List.mem_singleton] at h1
          exact ⟨name, .refl _, by rw [h1]; rfl⟩
  unfold createFile at h
  split at h
  · cases h
  · split at h
    · cases h
    · rename_i e; cases h; exact htwice _ e
    · rename_i e
      have hmid : ∀ (ops : List PathOp), (∀ op ∈ ops, ∃ pre, Leading pre name ∧ op.path = cstr (fullPath root pre)) →
          ∀ op ∈ ops ++ [.openFile (cstr (fullPath root name))], ∃ pre, Leading pre name ∧ op.path = cstr (fullPath root pre) := by
        intro ops ho op hop
        rcases List.mem_append.1 hop with h1 | h1
        · exact ho op h1
        · simp only [List.mem_singleton] at h1
          exact ⟨name, .refl _, by rw [h1]; rfl⟩
      split at h
      · cases h; exact hmid _ (htwice _ e)
      · split at h
        · cases h
        · rename_i e2
          cases h
          intro op hop
          rcases List.mem_append.1 hop with h1 | h1
          · exact hmid _ (htwice _ e) op h1
          · exact hretry _ _ e2 op h1

/-- **C48 (in part).**  If the name that the sender gives has no NUL character and no
component "..", then every path that the receiver makes a directory, opens or deletes for a
block of that file lies in its root directory.  Symbolic links are not modelled.

Missing: names with ".." or NUL (`C48_violated`, `C48_violated_nul`), which the receiver
accepts. -/
theorem C48_inside_partial (os : PathOS) (root name : Bytes) (cache : List Bytes) (u : BlockUse) (ops : List PathOp)
    (hroot : 0 ∉ root) (hnul : 0 ∉ name) (hdots : [46, 46] ∉ comps name)
    (h : useBlock os (addSlash root) name cache u = .ok ops) (op : PathOp) (hop : op ∈ ops) :
    resolve root <+: resolve op.path := by
  have hkey : ∃ pre, Leading pre name ∧ op.path = cstr (fullPath (addSlash root) pre) := by
    cases u with
    | delete =>
      simp only [useBlock, Except.ok.injEq] at h
      subst h
      simp only [List.mem_singleton] at hop
      exact ⟨name, .refl _, by rw [hop]; rfl⟩
    | create =>
      simp only [useBlock] at h
      split at h
      · cases h
      · rename_i e; cases h; exact createFile_ops _ _ _ _ _ e op hop
    | openExisting =>
      simp only [useBlock, openExisting] at h
      split at h
      · cases h
      · rename_i e
        cases h
        split at e
        · cases e
          simp only [List.mem_singleton] at hop
          exact ⟨name, .refl _, by rw [hop]; rfl⟩
        · cases e
  obtain ⟨pre, hl, he⟩ := hkey
  have hz : 0 ∉ fullPath (addSlash root) pre := by
    obtain ⟨suf, rfl, -⟩ := hl
    unfold fullPath addSlash
    simp only [List.mem_append, not_or] at hnul ⊢
    refine ⟨?_, hnul.1⟩
    split
    · exact hroot
    · simp only [List.mem_append, not_or]; exact ⟨hroot, by decide⟩
  rw [he, cstr_id _ hz]
  exact resolve_below root pre (leading_comps hl hdots)

/-- The name "a/b/c" in the root "/d": two directories and a file. -/
example : ∃ (os : PathOS) (ops : List PathOp), useBlock os (addSlash [47, 100]) [97, 47, 98, 47, 99] [] .create = .ok ops ∧
    [46, 46] ∉ comps [97, 47, 98, 47, 99] ∧
    ops = [.mkdir [47, 100, 47, 97, 47], .mkdir [47, 100, 47, 97, 47, 98, 47], .openFile [47, 100, 47, 97, 47, 98, 47, 99]] :=
  ⟨⟨fun _ => true, fun _ => true⟩, _, rfl, by decide, by decide +kernel⟩

/-- **C48 is violated.**  With the root "/d" a sender that names its file "../e" makes the
receiver create "/e", or delete it. -/
theorem C48_violated :
    ∃ (os : PathOS) (root name p : Bytes), useBlock os (addSlash root) name [] .delete = .ok [.unlink p] ∧
      useBlock os (addSlash root) name [] .create = .ok [.mkdir [47, 100, 47, 46, 46, 47], .openFile p] ∧
      resolve root = [[100]] ∧ resolve p = [[101]] :=
  ⟨⟨fun _ => true, fun _ => true⟩, [47, 100], [46, 46, 47, 101], [47, 100, 47, 46, 46, 47, 101], by decide +kernel, by decide +kernel,
    by decide +kernel, by decide +kernel⟩

/-- **C48 is violated by NUL characters**: a name none of whose components is ".." leads out
of the root. -/
theorem C48_violated_nul :
    ∃ (os : PathOS) (root name p : Bytes), [46, 46] ∉ comps name ∧
      useBlock os (addSlash root) name [] .openExisting = .ok [.openFile p] ∧ ¬ resolve root <+: resolve p :=
  ⟨⟨fun _ => true, fun _ => true⟩, [47, 100], [46, 46, 0], [47, 100, 47, 46, 46], by decide +kernel, by decide +kernel,
    by decide +kernel⟩

/-- **C48: the checks of the name crash the receiver.**  A name that begins or ends with a
slash, or is empty, is not rejected but ends the process. -/
theorem C48_violated_crash (os : PathOS) (root name : Bytes) (cache : List Bytes)
    (h : name = [] ∨ name.head? = some slash ∨ name.getLast? = some slash) :
    useBlock os root name cache .create = .error .check ∧ useBlock os root name cache .openExisting = .error .check := by
  have hn : nameOk name = false := by
    unfold nameOk
    rcases h with rfl | h | h
    · rfl
    · rw [h]; simp
    · rw [h]; simp
  constructor
  · simp [useBlock, createFile, hn]
  · simp [useBlock, openExisting, hn]

/-- With a directory, the cache has those above it. -/
def Closed (cache : List Bytes) : Prop :=
  ∀ d ∈ cache, ∀ pre, Leading pre d → pre ≠ [] → pre.getLast? = some slash → pre ∈ cache

/-- A leading part of a directory that is not all of it leads up to its parent. -/
theorem leading_parent {pre dir : Bytes} (h : Leading pre dir) (hne : pre ≠ dir) (h0 : pre ≠ []) (hs : pre.getLast? = some slash) :
    0 < parentIdx dir (dir.length - 1) ∧ Leading pre (dir.take (parentIdx dir (dir.length - 1))) := by
  obtain ⟨suf, rfl, -⟩ := h
  have hsuf : suf ≠ [] := by rintro rfl; simp at hne
  have hl : 0 < suf.length := List.length_pos_iff.2 hsuf
  have hp : 0 < pre.length := List.length_pos_iff.2 h0
  have key : ∀ n, pre.length ≤ n → pre.length ≤ parentIdx (pre ++ suf) n := by
    intro n hn
    induction n with
    | zero => omega
    | succ n ih =>
      unfold parentIdx
      split
      · exact hn
      · rename_i hx
        apply ih
        rcases Nat.lt_or_ge n pre.length with h | h
        · exfalso
          apply hx
          have : n = pre.length - 1 := by omega
          rw [this, List.getElem?_append_left (by omega), ← List.getLast?_eq_getElem?]
          exact hs
        · exact h
  have hk := key ((pre ++ suf).length - 1) (by rw [List.length_append]; omega)
  refine ⟨by omega, ⟨suf.take (parentIdx (pre ++ suf) ((pre ++ suf).length - 1) - pre.length), ?_, .inr (.inr hs)⟩⟩
  rw [List.take_append, List.take_of_length_le hk]

/-- Making directories. -/
theorem createDirs_spec (os : PathOS) (root : Bytes) (force : Bool) (fuel : Nat) (cache : List Bytes) (dir : Bytes)
    (hf : dir.length ≤ fuel) (hs : dir.getLast? = some slash) (hc : Closed cache) :
    ∃ cache' ops r, createDirs os root force fuel cache dir = .ok (cache', ops, r) ∧ Closed cache' ∧
      (∀ d ∈ cache', d ∈ cache ∨ .mkdir (cstr (fullPath root d)) ∈ ops) ∧ (∀ d ∈ cache, d ∈ cache') ∧ (r = true → dir ∈ cache') := by
  induction fuel generalizing cache dir with
  | zero =>
    have : dir = [] := List.eq_nil_of_length_eq_zero (by omega)
    subst this; simp at hs
  | succ fuel ih =>
    have hpos : 0 < dir.length := by cases dir with
      | nil => simp at hs
      | cons c cs => simp
    unfold createDirs
    split
    · rename_i h
      simp only [Bool.and_eq_true, List.contains_iff_mem] at h
      exact ⟨cache, [], true, rfl, hc, fun d hd => .inl hd, fun d hd => hd, fun _ => h.2⟩
    · rw [if_neg (by simp [hs])]
      simp only
      have hq : ∃ cache' ops r, (if parentIdx dir (dir.length - 1) > 0 then
          createDirs os root force fuel cache (dir.take (parentIdx dir (dir.length - 1))) else .ok (cache, [], true)) = .ok (cache', ops, r) ∧
          Closed cache' ∧ (∀ d ∈ cache', d ∈ cache ∨ .mkdir (cstr (fullPath root d)) ∈ ops) ∧ (∀ d ∈ cache, d ∈ cache') ∧
          (r = true → 0 < parentIdx dir (dir.length - 1) → dir.take (parentIdx dir (dir.length - 1)) ∈ cache') := by
        obtain ⟨q1, q2⟩ := parentIdx_spec dir (dir.length - 1)
        split
        · rename_i hgt
          obtain ⟨c', o, r, e1, e2, e3, e4, e5⟩ := ih cache (dir.take (parentIdx dir (dir.length - 1))) (by simp; omega)
            (by rcases q2 with q2 | q2
                · omega
                · exact q2) hc
          exact ⟨c', o, r, e1, e2, e3, e4, fun h _ => e5 h⟩
        · exact ⟨cache, [], true, rfl, hc, fun d hd => .inl hd, fun d hd => hd, fun _ h => absurd h (by assumption)⟩
      obtain ⟨c', o, r, e1, e2, e3, e4, e5⟩ := hq
      rw [e1]
      cases r with
      | false => exact ⟨c', o, false, rfl, e2, e3, e4, by simp⟩
      | true =>
        simp only
        split
        · refine ⟨_, _, _, rfl, ?_, ?_, fun d hd => List.mem_cons_of_mem _ (e4 d hd), fun _ => List.mem_cons_self⟩
          · intro d hd pre hl h0 hsl
            rcases List.mem_cons.1 hd with rfl | hd
            · by_cases hpd : pre = d
              · rw [hpd]; exact List.mem_cons_self
              · obtain ⟨k1, k2⟩ := leading_parent hl hpd h0 hsl
                exact List.mem_cons_of_mem _ (e2 _ (e5 rfl k1) pre k2 h0 hsl)
            · exact List.mem_cons_of_mem _ (e2 d hd pre hl h0 hsl)
          · intro d hd
            rcases List.mem_cons.1 hd with rfl | hd
            · exact .inr (by simp)
            · rcases e3 d hd with h | h
              · exact .inl h
              · exact .inr (by simp [h])
        · refine ⟨_, _, _, rfl, e2, ?_, e4, by simp⟩
          intro d hd
          rcases e3 d hd with h | h
          · exact .inl h
          · exact .inr (by simp [h])

/-- **C58.**  When the receiver has opened a new file, every directory above it had been
made (or found) before, by this call or an earlier one; and names that pass the checks at
the beginning trip no other. -/
theorem C58_parents_first (os : PathOS) (root name : Bytes) (cache : List Bytes) (hc : Closed cache) (hn : nameOk name = true) :
    ∃ cache' ops r, createFile os root name cache = .ok (cache', ops, r) ∧ Closed cache' ∧
      (r = true → ∀ pre, Leading pre name → pre ≠ [] → pre ≠ name → pre ∈ cache ∨ .mkdir (cstr (fullPath root pre)) ∈ ops) ∧
      (r = true → .openFile (cstr (fullPath root name)) ∈ ops) := by
  have hlastname : name.getLast? ≠ some slash := by
    unfold nameOk at hn; simp only [Bool.and_eq_true, decide_eq_true_eq] at hn; exact hn.2
  have hdp : dirPart name = [] ∨ (dirPart name).getLast? = some slash := by
    unfold dirPart
    rcases (parentIdx_spec name name.length).2 with h | h
    · left; rw [h]; simp
    · right; exact h
  -- leading parts of the name are leading parts of its directory
  have hlead : ∀ pre, Leading pre name → pre ≠ [] → pre ≠ name → dirPart name ≠ [] ∧ Leading pre (dirPart name) ∧ pre.getLast? = some slash := by
    intro pre hl h0 hne
    have hs : pre.getLast? = some slash := by
      obtain ⟨suf, e, h1 | h1 | h1⟩ := hl
      · subst h1; simp at e; exact absurd e.symm hne
      · exact absurd h1 h0
      · exact h1
    obtain ⟨k1, k2⟩ := leading_parent hl hne h0 hs
    have hidx : parentIdx name name.length = parentIdx name (name.length - 1) := by
      have hpos : 0 < name.length := by cases name with
        | nil => simp [nameOk] at hn
        | cons c cs => simp
      obtain ⟨m, hm⟩ : ∃ m, name.length = m + 1 := ⟨name.length - 1, by omega⟩
      rw [hm]
      show parentIdx name (m + 1) = parentIdx name (m + 1 - 1)
      have : name[m]? ≠ some slash := by
        have e := List.getLast?_eq_getElem? (l := name)
        rw [hm] at e
        rw [← show m + 1 - 1 = m from by omega, ← e]; exact hlastname
      rw [parentIdx, if_neg this]
      simp
    unfold dirPart
    rw [hidx]
    refine ⟨?_, k2, hs⟩
    intro e
    obtain ⟨suf, e2, -⟩ := k2
    rw [e] at e2
    exact h0 (List.append_eq_nil_iff.1 e2.symm).1
  have hstep : ∀ force (c : List Bytes), Closed c → dirPart name ≠ [] →
      ∃ cache' ops r, createDirs os root force (dirPart name).length c (dirPart name) = .ok (cache', ops, r) ∧ Closed cache' ∧
        (∀ d ∈ cache', d ∈ c ∨ .mkdir (cstr (fullPath root d)) ∈ ops) ∧ (∀ d ∈ c, d ∈ cache') ∧ (r = true → dirPart name ∈ cache') := by
    intro force c hcc hne
    exact createDirs_spec os root force _ c _ (Nat.le_refl _) (hdp.resolve_left hne) hcc
  have htwice : ∃ cache' ops r, createDirsTwice os root (dirPart name) cache = .ok (cache', ops, r) ∧ Closed cache' ∧
      (∀ d ∈ cache', d ∈ cache ∨ .mkdir (cstr (fullPath root d)) ∈ ops) ∧ (r = true → dirPart name ≠ [] → dirPart name ∈ cache') := by
    unfold createDirsTwice
    by_cases hne : dirPart name = []
    · rw [if_pos hne]; exact ⟨_, _, _, rfl, hc, fun d hd => .inl hd, fun _ h => absurd hne h⟩
    · rw [if_neg hne]
      obtain ⟨c1, o1, r1, e1, e2, e3, e4, e5⟩ := hstep false cache hc hne
      rw [e1]
      cases r1 with
      | true => exact ⟨c1, o1, true, rfl, e2, e3, fun _ _ => e5 rfl⟩
      | false =>
        simp only
        obtain ⟨c2, o2, r2, f1, f2, f3, f4, f5⟩ := hstep true c1 e2 hne
        rw [f1]
        refine ⟨c2, o1 ++ o2, r2, rfl, f2, ?_, fun h _ => f5 h⟩
        intro d hd
        rcases f3 d hd with h | h
        · rcases e3 d h with h' | h'
          · exact .inl h'
          · exact .inr (by simp [h'])
        · exact .inr (by simp [h])
  unfold createFile
  rw [if_neg (by simp [hn])]
  obtain ⟨c1, o1, r1, e1, e2, e3, e4⟩ := htwice
  rw [e1]
  cases r1 with
  | false => exact ⟨c1, o1, false, rfl, e2, by simp, by simp⟩
  | true =>
    simp only
    have hpar : ∀ (x : List PathOp) pre, Leading pre name → pre ≠ [] → pre ≠ name →
        pre ∈ cache ∨ .mkdir (cstr (fullPath root pre)) ∈ o1 ++ x := by
      intro x pre hl h0 hne
      obtain ⟨k1, k2, k3⟩ := hlead pre hl h0 hne
      rcases e3 pre (e2 _ (e4 rfl k1) pre k2 h0 k3) with h | h
      · exact .inl h
      · exact .inr (by simp [h])
    split
    · exact ⟨_, _, _, rfl, e2, fun _ => hpar _, by simp⟩
    · unfold createRetry
      by_cases hne : dirPart name = []
      · rw [if_pos hne]
        exact ⟨_, _, _, rfl, e2, by simp, by simp⟩
      · rw [if_neg hne]
        obtain ⟨c2, o2, r2, f1, f2, f3, f4, f5⟩ := hstep true c1 e2 hne
        rw [f1]
        cases r2 with
        | false => exact ⟨_, _, _, rfl, f2, by simp, by simp⟩
        | true =>
          refine ⟨_, _, _, rfl, f2, fun _ => ?_, by simp⟩
          rw [List.append_assoc]
          exact hpar _

example : Closed ([] : List Bytes) ∧ nameOk [97, 47, 98] = true ∧ Leading [97, 47] [97, 47, 98] := by
  exact ⟨by simp [Closed], by decide, ⟨[98], rfl, .inr (.inr rfl)⟩⟩

end Wdt
