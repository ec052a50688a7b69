import Verif.Props.Discovery
/-
C61: symbolic links that lead in circles do not keep discovery from ending, and lead to no
file that is not there.
-/
namespace Wdt

/-! ### What is found is there, also after errors -/

theorem xEntry_sub (d : DiskView) (c : XCfg) (root rel : Bytes) (s : XState) (e : DEnt) :
    (xEntry d c root rel s e).files = s.files ++ entFiles d c root rel e ∧
    ((xEntry d c root rel s e).todo = s.todo ∨ (xEntry d c root rel s e).todo = s.todo ++ entDirs d c root rel e) := by
  have ha : ∀ full, (s.addDir c full (rel ++ e.name)).files = s.files ∧ ((s.addDir c full (rel ++ e.name)).todo = s.todo ∨
      (s.addDir c full (rel ++ e.name)).todo = s.todo ++ if c.pruned (rel ++ e.name ++ [slash]) then [] else [rel ++ e.name ++ [slash]]) := by
    intro full
    unfold XState.addDir
    by_cases hv : (c.follow && s.visited.contains full) = true
    · rw [if_pos hv]; exact ⟨rfl, .inl rfl⟩
    · rw [if_neg hv]
      by_cases hp : c.pruned (rel ++ e.name ++ [slash]) = true
      · rw [if_pos hp, if_pos hp]
        by_cases hf : c.follow = true <;> simp [hf]
      · rw [if_neg hp, if_neg hp]
        by_cases hf : c.follow = true <;> simp [hf]
  unfold xEntry entFiles entDirs entIsDir
  by_cases h1 : (isDots e.name || !e.dtype.kept c.follow) = true
  · simp [h1]
  · rw [if_neg h1]
    have h1' : (isDots e.name || !e.dtype.kept c.follow) = false := by simpa using h1
    by_cases h2 : e.dtype = .dir
    · rw [if_pos h2, if_pos (by simp [h2]), if_neg h1, if_pos (by simp [h2])]
      simpa using ha (root ++ (rel ++ e.name))
    · rw [if_neg h2, if_neg (by simpa [h2] using h1'), if_neg h1]
      cases hl : xResolve d c.follow (root ++ (rel ++ e.name)) with
      | none => simp
      | some mq =>
        obtain ⟨m, q⟩ := mq
        cases m with
        | reg n => by_cases hw : c.wanted (rel ++ e.name) = true <;> simp [hw]
        | dir => simpa using ha q
        | lnk => simp
        | other => simp

/-- Directories to do are to be searched; files found are to be found. -/
structure XSound (d : DiskView) (c : XCfg) (root : Bytes) (s : XState) : Prop where
  todo : ∀ rel ∈ s.todo, Below d c root rel
  files : ∀ f ∈ s.files, SourceFile d c root f.rel f.size f.full

theorem xDir_sound {d : DiskView} {c : XCfg} {root : Bytes} (ht : Truthful d root) {rel : Bytes} {s : XState} (hb : Below d c root rel)
    (h : XSound d c root s) : XSound d c root (xDir d c root rel s) := by
  unfold xDir
  cases ho : d.opendir (root ++ rel) with
  | none => exact ⟨h.todo, h.files⟩
  | some y =>
    obtain ⟨ents, err⟩ := y
    have key : ∀ (l : List DEnt) (s : XState), (∀ e ∈ l, e ∈ ents) → XSound d c root s → XSound d c root (l.foldl (xEntry d c root rel) s) := by
      intro l
      induction l with
      | nil => intro s _ h; exact h
      | cons e l ih =>
        intro s hl hs
        refine ih _ (fun x hx => hl x (List.mem_cons_of_mem _ hx)) ?_
        have he := hl e (by simp)
        obtain ⟨hf, htd⟩ := xEntry_sub d c root rel s e
        constructor
        · intro x hx
          have : x ∈ s.todo ∨ x ∈ entDirs d c root rel e := by
            rcases htd with htd | htd <;> rw [htd] at hx
            · exact .inl hx
            · simpa using hx
          rcases this with hx | hx
          · exact hs.todo x hx
          · obtain ⟨e', h1, h2, h3, rfl⟩ := (mem_dirDirs (c := c) (root := root) (rel := rel) (x := x) ht).1 (by
              unfold dirDirs; rw [ho]; exact List.mem_flatMap.2 ⟨e, he, hx⟩)
            exact .sub e' hb h1 h2 (pruned_false.1 h3)
        · intro f hx
          rw [hf, List.mem_append] at hx
          rcases hx with hx | hx
          · exact hs.files f hx
          · obtain ⟨e', h1, h2, h3, h4⟩ := (mem_dirFiles (c := c) (rel := rel) ht f).1 (by
              unfold dirFiles; rw [ho]; exact List.mem_flatMap.2 ⟨e, he, hx⟩)
            exact ⟨rel, e', hb, h1, h4, by rw [h4]; exact h2, by rw [h4]; exact wanted_iff.1 h3⟩
    have := key ents s (fun _ h => h) h
    exact ⟨this.todo, this.files⟩

/-- C61: every file found is one to be found, with links followed or not, and whatever
errors happen. -/
theorem C61_sound (d : DiskView) (c : XCfg) (root : Bytes) (fuel : Nat) (s : XState) (ht : Truthful d root)
    (h : explore d c root fuel = some s) : ∀ f ∈ s.files, SourceFile d c root f.rel f.size f.full := by
  have key : ∀ (fuel : Nat) (s s' : XState), XSound d c root s → xLoop d c root fuel s = some s' → XSound d c root s' := by
    intro fuel
    induction fuel with
    | zero =>
      intro s s' hs hr
      unfold xLoop at hr
      split at hr
      · cases hr; exact hs
      · cases hr
    | succ fuel ih =>
      intro s s' hs hr
      unfold xLoop at hr
      cases htd : s.todo with
      | nil => simp only [htd] at hr; cases hr; exact hs
      | cons rel rest =>
        simp only [htd] at hr
        have hs' : XSound d c root { s with todo := rest } :=
          ⟨fun x hx => hs.todo x (by rw [htd]; exact List.mem_cons_of_mem _ hx), hs.files⟩
        exact ih _ _ (xDir_sound ht (hs.todo rel (by rw [htd]; simp)) hs') hr
  exact (key fuel _ s ⟨by intro x hx; simp at hx; subst hx; exact .top, by intro f hf; cases hf⟩ h).files

/-! ### It ends -/

/-- A finite file system: directories have at most `B` entries; below a directory, links left
aside, is a tree, whose height `rank` is at most `H`; and links lead to the directories
`K`.  Links may lead in circles. -/
structure FiniteTree (d : DiskView) (root : Bytes) (B H : Nat) (K : List Bytes) (rank : Bytes → Nat) : Prop where
  width : ∀ rel ents err, d.opendir (root ++ rel) = some (ents, err) → ents.length ≤ B
  height : ∀ rel, rank rel ≤ H
  deeper : ∀ rel e, HasEntry d root rel e → d.lstat (root ++ (rel ++ e.name)) = some .dir → rank (rel ++ e.name ++ [slash]) < rank rel
  targets : ∀ p q, d.lstat p = some .lnk → d.stat p = some .dir → d.realpath p = some q → q ∈ K

/-- Directories in a tree of height `r`, each with at most `B` below it. -/
def treeSize (B : Nat) : Nat → Nat
  | 0 => 1
  | r + 1 => 1 + B * treeSize B r

/-- The same for what is below one entry. -/
def subSize (B : Nat) : Nat → Nat
  | 0 => 0
  | r + 1 => treeSize B r

theorem treeSize_eq (B r : Nat) : treeSize B r = 1 + B * subSize B r := by cases r <;> simp [treeSize, subSize]

theorem treeSize_step (B : Nat) (hB : 0 < B) (r : Nat) : treeSize B r ≤ treeSize B (r + 1) := by
  show treeSize B r ≤ 1 + B * treeSize B r
  have := Nat.le_mul_of_pos_left (treeSize B r) hB
  omega

theorem treeSize_mono (B : Nat) (hB : 0 < B) {r r' : Nat} (h : r ≤ r') : treeSize B r ≤ treeSize B r' := by
  induction h with
  | refl => exact Nat.le_refl _
  | step h ih => exact Nat.le_trans ih (treeSize_step B hB _)

theorem treeSize_lt (B : Nat) (hB : 0 < B) {r r' : Nat} (h : r' < r) : treeSize B r' ≤ subSize B r := by
  cases r with
  | zero => omega
  | succ r => exact treeSize_mono B hB (by omega)

/-- How many of `K` are not in `v`. -/
def unseen (K v : List Bytes) : Nat := K.countP fun x => !v.contains x

theorem unseen_le (K v : List Bytes) (q : Bytes) : unseen K (q :: v) ≤ unseen K v := by
  unfold unseen
  refine List.countP_mono_left ?_
  intro x _ hx
  simp at hx ⊢
  exact hx.2

theorem unseen_lt (K v : List Bytes) (q : Bytes) (hq : q ∈ K) (hv : v.contains q = false) : unseen K (q :: v) + 1 ≤ unseen K v := by
  induction K with
  | nil => cases hq
  | cons k K ih =>
    have hc : ∀ v, unseen (k :: K) v = unseen K v + if (!v.contains k) then 1 else 0 := by
      intro v; unfold unseen; rw [List.countP_cons]
    rw [hc, hc]
    by_cases hk : k = q
    · subst hk
      have := unseen_le K v k
      rw [hv]; simp; omega
    · have hq' : q ∈ K := by
        rcases List.mem_cons.1 hq with h | h
        · exact absurd h.symm hk
        · exact h
      have := ih hq'
      have he : (q :: v).contains k = v.contains k := by simp [hk]
      rw [he]; omega

/-- What is left to do at most. -/
def left (B H : Nat) (K : List Bytes) (rank : Bytes → Nat) (s : XState) : Nat :=
  (s.todo.map fun rel => treeSize B (rank rel)).sum + unseen K s.visited * treeSize B H

theorem addDir_left {c : XCfg} (hf : c.follow = true) {B H : Nat} {K : List Bytes} {rank : Bytes → Nat} (s : XState) (full r : Bytes) :
    left B H K rank (s.addDir c full r) ≤ left B H K rank s + treeSize B (rank (r ++ [slash])) ∧
    (full ∈ K → treeSize B (rank (r ++ [slash])) ≤ treeSize B H → left B H K rank (s.addDir c full r) ≤ left B H K rank s) := by
  unfold XState.addDir
  by_cases hv : (c.follow && s.visited.contains full) = true
  · rw [if_pos hv]
    refine ⟨?_, fun _ _ => ?_⟩ <;> simp only [left] <;> omega
  · rw [if_neg hv]
    have hv' : s.visited.contains full = false := by rw [hf] at hv; simpa using hv
    simp only [hf, if_true]
    have h1 := Nat.mul_le_mul_right (treeSize B H) (unseen_le K s.visited full)
    by_cases hp : c.pruned (r ++ [slash]) = true
    · rw [if_pos hp]
      refine ⟨?_, fun _ _ => ?_⟩ <;> simp only [left] <;> omega
    · rw [if_neg hp]
      refine ⟨?_, fun hK hH => ?_⟩
      · simp only [left, List.map_append, List.sum_append, List.map_cons, List.map_nil, List.sum_cons, List.sum_nil]; omega
      · have h2 := Nat.mul_le_mul_right (treeSize B H) (unseen_lt K s.visited full hK hv')
        rw [Nat.add_mul] at h2
        simp only [left, List.map_append, List.sum_append, List.map_cons, List.map_nil, List.sum_cons, List.sum_nil]; omega

theorem xEntry_left {d : DiskView} {c : XCfg} {root : Bytes} (hf : c.follow = true) (ht : Truthful d root) {B H : Nat} {K : List Bytes}
    {rank : Bytes → Nat} (hfin : FiniteTree d root B H K rank) (hB : 0 < B) {rel : Bytes} {e : DEnt}
    (he : ∃ ents err, d.opendir (root ++ rel) = some (ents, err) ∧ e ∈ ents) (s : XState) :
    left B H K rank (xEntry d c root rel s e) ≤ left B H K rank s + subSize B (rank rel) := by
  have hrank : ∀ r, treeSize B (rank r) ≤ treeSize B H := fun r => treeSize_mono B hB (hfin.height r)
  unfold xEntry
  by_cases h1 : (isDots e.name || !e.dtype.kept c.follow) = true
  · rw [if_pos h1]; omega
  · rw [if_neg h1]
    simp only [Bool.or_eq_true, not_or, Bool.not_eq_true] at h1
    have hE : HasEntry d root rel e := ⟨he, isDots_false.1 h1.1⟩
    have hreal : d.lstat (root ++ (rel ++ e.name)) = some .dir → ∀ full,
        left B H K rank (s.addDir c full (rel ++ e.name)) ≤ left B H K rank s + subSize B (rank rel) := by
      intro hl full
      have h2 := treeSize_lt B hB (hfin.deeper rel e hE hl)
      have := (addDir_left (B := B) (H := H) (K := K) (rank := rank) hf s full (rel ++ e.name)).1
      omega
    by_cases h2 : e.dtype = .dir
    · rw [if_pos h2]
      refine hreal ?_ _
      have := ht.types rel e hE
      rw [h2] at this
      exact this
    · rw [if_neg h2]
      cases hl : xResolve d c.follow (root ++ (rel ++ e.name)) with
      | none => simp only [left]; omega
      | some mq =>
        obtain ⟨m, q⟩ := mq
        cases m with
        | reg n =>
          by_cases hw : c.wanted (rel ++ e.name) = true
          · simp only [hw, if_true, left]; omega
          · simp only [hw]; simp
        | dir =>
          simp only
          cases (xResolve_leads (by simp)).1 hl with
          | plain h _ => exact hreal h _
          | link hf' h hs hr =>
            have := (addDir_left (B := B) (H := H) (K := K) (rank := rank) hf s q (rel ++ e.name)).2 (hfin.targets _ _ h hs hr) (hrank _)
            omega
        | lnk => simp only; omega
        | other => simp only; omega

theorem xDir_left {d : DiskView} {c : XCfg} {root : Bytes} (hf : c.follow = true) (ht : Truthful d root) {B H : Nat} {K : List Bytes}
    {rank : Bytes → Nat} (hfin : FiniteTree d root B H K rank) (hB : 0 < B) (rel : Bytes) (s : XState) :
    left B H K rank (xDir d c root rel s) + 1 ≤ left B H K rank s + treeSize B (rank rel) := by
  have hpos := treeSize_eq B (rank rel)
  unfold xDir
  cases ho : d.opendir (root ++ rel) with
  | none => simp only [left]; omega
  | some y =>
    obtain ⟨ents, err⟩ := y
    have key : ∀ (l : List DEnt) (s : XState), (∀ e ∈ l, e ∈ ents) →
        left B H K rank (l.foldl (xEntry d c root rel) s) ≤ left B H K rank s + l.length * subSize B (rank rel) := by
      intro l
      induction l with
      | nil => intro s _; simp
      | cons e l ih =>
        intro s hl
        have h1 := ih (xEntry d c root rel s e) (fun x hx => hl x (List.mem_cons_of_mem _ hx))
        have h2 := xEntry_left hf ht hfin hB ⟨ents, err, ho, hl e (by simp)⟩ s
        rw [List.foldl_cons, List.length_cons, Nat.add_mul]
        omega
    have h1 := key ents s (fun _ h => h)
    have h2 := Nat.mul_le_mul_right (subSize B (rank rel)) (hfin.width rel ents err ho)
    have h3 : left B H K rank { ents.foldl (xEntry d c root rel) s with hasError := (ents.foldl (xEntry d c root rel) s).hasError || err }
        = left B H K rank (ents.foldl (xEntry d c root rel) s) := rfl
    simp only
    rw [h3]
    omega

/-- C61: with links followed, discovery of a finite file system ends, although links may lead
in circles. -/
theorem C61_ends (d : DiskView) (c : XCfg) (root : Bytes) (ht : Truthful d root) (hf : c.follow = true) (B H : Nat) (K : List Bytes)
    (rank : Bytes → Nat) (hfin : FiniteTree d root B H K rank) : ∃ n, ∀ fuel, n ≤ fuel → ∃ s, explore d c root fuel = some s := by
  have hfin' : FiniteTree d root (B + 1) H K rank :=
    ⟨fun rel ents err h => Nat.le_succ_of_le (hfin.width rel ents err h), hfin.height, hfin.deeper, hfin.targets⟩
  have key : ∀ (fuel : Nat) (s : XState), left (B + 1) H K rank s ≤ fuel → ∃ s', xLoop d c root fuel s = some s' := by
    intro fuel
    induction fuel with
    | zero =>
      intro s h
      unfold xLoop
      cases htd : s.todo with
      | nil => exact ⟨s, by simp⟩
      | cons rel rest =>
        exfalso
        have := treeSize_eq (B + 1) (rank rel)
        simp only [left, htd, List.map_cons, List.sum_cons] at h
        omega
    | succ fuel ih =>
      intro s h
      unfold xLoop
      cases htd : s.todo with
      | nil => exact ⟨s, rfl⟩
      | cons rel rest =>
        simp only
        refine ih _ ?_
        have h1 := xDir_left (c := c) hf ht hfin' (by omega) rel { s with todo := rest }
        have h2 : left (B + 1) H K rank s = left (B + 1) H K rank { s with todo := rest } + treeSize (B + 1) (rank rel) := by
          simp only [left, htd, List.map_cons, List.sum_cons]; omega
        omega
  exact ⟨left (B + 1) H K rank { todo := [[]] }, fun fuel hfu => key fuel _ hfu⟩

/-! ### Example: a directory with a link back to it -/

/-- In "/r/": a file "a" and a directory "d"; in that a file "b", of which `readdir` does not
tell the type, and a link "l" to "/r". -/
def loopDisk : DiskView where
  opendir p := match p.dropLast.getLast? with
    | some 114 => some ([⟨[97], .reg⟩, ⟨[100], .dir⟩, ⟨[46], .dir⟩], false)
    | some 108 => some ([⟨[97], .reg⟩, ⟨[100], .dir⟩, ⟨[46], .dir⟩], false)
    | some 100 => some ([⟨[98], .unknown⟩, ⟨[108], .lnk⟩], false)
    | _ => none
  lstat p := match p.getLast? with
    | some 97 => some (.reg 3)
    | some 98 => some (.reg 5)
    | some 100 => some .dir
    | some 108 => some .lnk
    | _ => none
  stat p := match p.getLast? with
    | some 97 => some (.reg 3)
    | some 98 => some (.reg 5)
    | some 100 => some .dir
    | some 108 => some .dir
    | _ => none
  realpath _ := some [47, 114]

def loopRoot : Bytes := [47, 114, 47]

theorem loopDisk_entries {rel : Bytes} {ents : List DEnt} {err : Bool} (h : loopDisk.opendir (loopRoot ++ rel) = some (ents, err)) :
    ents = [⟨[97], .reg⟩, ⟨[100], .dir⟩, ⟨[46], .dir⟩] ∨
    (ents = [⟨[98], .unknown⟩, ⟨[108], .lnk⟩] ∧ (loopRoot ++ rel).dropLast.getLast? = some 100) := by
  simp only [loopDisk] at h
  split at h
  · cases h; exact .inl rfl
  · cases h; exact .inl rfl
  · next h1 => cases h; exact .inr ⟨rfl, h1⟩
  · cases h

theorem loopDisk_entry {rel : Bytes} {e : DEnt} (h : HasEntry loopDisk loopRoot rel e) :
    e = ⟨[97], .reg⟩ ∨ e = ⟨[100], .dir⟩ ∨ e = ⟨[98], .unknown⟩ ∨ e = ⟨[108], .lnk⟩ := by
  obtain ⟨⟨ents, err, h1, h2⟩, h3⟩ := h
  rcases loopDisk_entries h1 with rfl | ⟨rfl, -⟩
  · simp only [List.mem_cons, List.not_mem_nil, or_false] at h2
    rcases h2 with rfl | rfl | rfl
    · simp
    · simp
    · exact absurd rfl h3.1
  · simp only [List.mem_cons, List.not_mem_nil, or_false] at h2
    rcases h2 with rfl | rfl <;> simp

theorem loopDisk_truthful : Truthful loopDisk loopRoot where
  types rel e h := by
    rcases loopDisk_entry h with rfl | rfl | rfl | rfl <;> simp [loopDisk, List.getLast?_append]
  names rel e h := by
    rcases loopDisk_entry h with rfl | rfl | rfl | rfl <;> exact ⟨by simp, by decide⟩
  once rel ents err h := by
    rcases loopDisk_entries h with rfl | ⟨rfl, -⟩ <;> decide

/-- Not following the link, the two files are found. -/
example : (explore loopDisk {} loopRoot 3).map (fun s => (s.files.map (fun f => (f.rel, f.size)), s.hasError)) =
    some ([([97], 3), ([100, 47, 98], 5)], false) := by decide +kernel

/-- There are two directories, so C60_ends applies. -/
example : ∃ s, explore loopDisk {} loopRoot 3 = some s := by
  refine C60_ends loopDisk {} loopRoot loopDisk_truthful rfl [[], [100, 47]] ?_ 3 (by decide)
  intro rel hb
  induction hb with
  | top => simp
  | @sub rel e hb he hd hp ih =>
    obtain ⟨q, hd⟩ := hd
    have hl : loopDisk.lstat (loopRoot ++ (rel ++ e.name)) = some .dir := by
      cases hd with
      | plain h _ => exact h
      | link hf _ _ _ => cases hf
    have hen : e.name = [100] := by
      rcases loopDisk_entry he with rfl | rfl | rfl | rfl
      · simp [loopDisk, List.getLast?_append] at hl
      · rfl
      · simp [loopDisk, List.getLast?_append] at hl
      · simp [loopDisk, List.getLast?_append] at hl
    simp only [List.mem_cons, List.not_mem_nil, or_false] at ih
    rcases ih with rfl | rfl
    · rw [hen]; simp [slash]
    · exfalso
      obtain ⟨⟨ents, err, h1, h2⟩, h3⟩ := he
      have : ents = [⟨[98], .unknown⟩, ⟨[108], .lnk⟩] := by
        have h4 : loopDisk.opendir (loopRoot ++ [100, 47]) = some ([⟨[98], .unknown⟩, ⟨[108], .lnk⟩], false) := by decide +kernel
        rw [h4] at h1; cases h1; rfl
      subst this
      simp only [List.mem_cons, List.not_mem_nil, or_false] at h2
      rcases h2 with rfl | rfl <;> cases hen

/-- Following it, discovery ends too.  The directory is not known as visited under its own
name, so the link is followed once, and all files are found twice. -/
example : (explore loopDisk { follow := true } loopRoot 9).map (fun s => (s.files.map XFile.rel, s.hasError)) =
    some ([[97], [100, 47, 98], [100, 47, 108, 47, 97], [100, 47, 108, 47, 100, 47, 98]], true) := by decide +kernel

/-- The file system is finite in the sense of C61. -/
example : FiniteTree loopDisk loopRoot 3 1 [[47, 114]] (fun rel => if rel.dropLast.getLast? = some 100 then 0 else 1) where
  width rel ents err h := by rcases loopDisk_entries h with rfl | ⟨rfl, -⟩ <;> simp
  height rel := by split <;> omega
  deeper rel e he hl := by
    have hen : e = ⟨[100], .dir⟩ := by
      rcases loopDisk_entry he with rfl | rfl | rfl | rfl
      · simp [loopDisk, List.getLast?_append] at hl
      · rfl
      · simp [loopDisk, List.getLast?_append] at hl
      · simp [loopDisk, List.getLast?_append] at hl
    subst hen
    have h1 : (rel ++ [100] ++ [slash]).dropLast.getLast? = some 100 := by
      rw [List.dropLast_concat, List.getLast?_append]; simp
    rw [if_pos h1]
    by_cases h2 : rel.dropLast.getLast? = some 100
    · exfalso
      have hne : rel ≠ [] := by rintro rfl; cases h2
      have h3 : (loopRoot ++ rel).dropLast.getLast? = some 100 := by
        rw [List.dropLast_append_of_ne_nil hne, List.getLast?_append, h2]; simp
      obtain ⟨⟨ents, err, h4, h5⟩, -⟩ := he
      have : ents = [⟨[98], .unknown⟩, ⟨[108], .lnk⟩] := by
        simp only [loopDisk, h3] at h4; cases h4; rfl
      subst this
      simp at h5
    · rw [if_neg h2]; omega
  targets p q _ _ h := by cases h; simp

end Wdt
