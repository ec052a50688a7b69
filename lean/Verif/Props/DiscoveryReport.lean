import Verif.Props.DiscoveryLinks
import Verif.Props.QueueFiles
import Verif.Props.Reporting
/-
C62: what discovery could not find is reported.
C63: files that the source has are not deleted at the destination.
C64: a list of files is sent as given, or failure is reported.
-/
namespace Wdt

/-! ### Example: a file that cannot be examined, a directory that cannot be opened -/

/-- In "/r/": a file "a" and an entry "x" for which `lstat` fails, though the directory
listing says that it is a file. -/
def badDisk : DiskView where
  opendir p := if p = [47, 114, 47] then some ([⟨[97], .reg⟩, ⟨[120], .reg⟩], false) else none
  lstat p := if p = [47, 114, 47, 97] then some (.reg 3) else none
  stat p := if p = [47, 114, 47, 97] then some (.reg 3) else none
  realpath p := some p

theorem badDisk_entry {rel : Bytes} {e : DEnt} (h : HasEntry badDisk loopRoot rel e) :
    rel = [] ∧ (e = ⟨[97], .reg⟩ ∨ e = ⟨[120], .reg⟩) := by
  obtain ⟨⟨ents, err, h1, h2⟩, h3⟩ := h
  simp only [badDisk, loopRoot] at h1
  split at h1
  · next h => cases h1; exact ⟨by simpa using h, by simpa using h2⟩
  · cases h1

theorem badDisk_truthful : Truthful badDisk loopRoot where
  types rel e h := by
    obtain ⟨rfl, rfl | rfl⟩ := badDisk_entry h <;> simp [badDisk, loopRoot]
  names rel e h := by
    obtain ⟨rfl, rfl | rfl⟩ := badDisk_entry h <;> exact ⟨by simp, by decide⟩
  once rel ents err h := by
    simp only [badDisk, loopRoot] at h
    split at h
    · cases h; decide
    · cases h

/-- In "/r/" a directory "d", which cannot be opened. -/
def closedDisk : DiskView where
  opendir p := if p = [47, 114, 47] then some ([⟨[100], .dir⟩], false) else none
  lstat p := if p = [47, 114, 47, 100] then some .dir else none
  stat p := if p = [47, 114, 47, 100] then some .dir else none
  realpath p := some p

theorem closedDisk_truthful : Truthful closedDisk loopRoot where
  types rel e h := by
    obtain ⟨⟨ents, err, h1, h2⟩, h3⟩ := h
    simp only [closedDisk, loopRoot] at h1
    split at h1
    · next h => cases h1; simp at h2 h; subst h2; subst h; simp [closedDisk, loopRoot]
    · cases h1
  names rel e h := by
    obtain ⟨⟨ents, err, h1, h2⟩, h3⟩ := h
    simp only [closedDisk, loopRoot] at h1
    split at h1
    · next h => cases h1; simp at h2; subst h2; exact ⟨by simp, by decide⟩
    · cases h1
  once rel ents err h := by
    simp only [closedDisk, loopRoot] at h
    split at h
    · cases h; decide
    · cases h

/-! ### C62 -/

/-- C62, in part: if a directory to be searched could not be opened, the report of the sender
is not OK.  Missing: errors with single entries, and links that lead to a directory twice,
see `C62_violated`. -/
theorem C62_unopened_reported_partial (d : DiskView) (c : XCfg) (root : Bytes) (fuel : Nat) (s : XState) (ht : Truthful d root)
    (hf : c.follow = false) (h : explore d c root fuel = some s) (dir : Bytes) (hb : Below d c root dir)
    (ho : d.opendir (root ++ dir) = none) (i : SenderInput) (hi : i.failedDirs = s.failedDirs) : (senderReport i).errorCode ≠ eOK := by
  intro hok
  have h1 := (C22_success_means_sent i hok).2.1
  have h2 := ((C60_errors d c root fuel s ht hf h).2 (root ++ dir)).2 ⟨dir, hb, ho, rfl⟩
  rw [← hi, h1] at h2
  cases h2

/-- The directory "d/" is one. -/
example : ∃ s, explore closedDisk {} loopRoot 5 = some s ∧ Below closedDisk {} loopRoot [100, 47] ∧
    closedDisk.opendir (loopRoot ++ [100, 47]) = none ∧ s.failedDirs = [loopRoot ++ [100, 47]] := by
  refine ⟨_, rfl, ?_, by decide +kernel, by decide +kernel⟩
  exact Below.sub (rel := []) ⟨[100], .dir⟩ .top ⟨⟨_, _, rfl, by decide +kernel⟩, by decide, by decide⟩ ⟨_, .plain (by decide +kernel) (by decide)⟩ (by simp)

/-- C62 is violated: a file "x" is in the directory, and cannot be examined; `explore`
reports the error to nobody (Sender.cpp:356, the result of `buildQueueSynchronously` is dropped), and once the other
files are sent the report of the sender is OK. -/
theorem C62_violated : ∃ (d : DiskView) (root : Bytes) (s : XState), Truthful d root ∧ explore d {} root 5 = some s ∧ s.hasError = true ∧
    HasEntry d root [] ⟨[120], .reg⟩ ∧ (∀ f ∈ s.files, f.rel ≠ [120]) ∧
    ∀ i : SenderInput, i.failedDirs = s.failedDirs → i.failedSources = [] → i.totalFileSize = ((s.files.map fun f => (f.size : Int)).sum) →
      i.threads.map (·.effDataBytes) = [3] → (∃ t ∈ i.threads, t.errorCode = eOK) → (senderReport i).errorCode = eOK := by
  refine ⟨badDisk, loopRoot, _, badDisk_truthful, rfl, by decide +kernel, ?_, by decide +kernel, ?_⟩
  · exact ⟨⟨_, _, rfl, by decide +kernel⟩, by decide, by decide⟩
  · intro i h1 h2 h3 h4 h5
    refine C22_success_reported i ?_ ?_ h2 h5
    · rw [h3, h4]; decide +kernel
    · rw [h1]; decide +kernel

/-- C62 is violated also by links that are followed: the directory "/r/d" is found as "l/",
which is a link to it, and therefore not as "d/"; no file is found in "d/". -/
def twiceDisk : DiskView where
  opendir p := if p = [47, 114, 47] then some ([⟨[108], .lnk⟩, ⟨[100], .dir⟩], false)
    else if p = [47, 114, 47, 108, 47] ∨ p = [47, 114, 47, 100, 47] then some ([⟨[97], .reg⟩], false) else none
  lstat p := if p = [47, 114, 47, 108] then some .lnk else if p = [47, 114, 47, 100] then some .dir
    else if p = [47, 114, 47, 108, 47, 97] ∨ p = [47, 114, 47, 100, 47, 97] then some (.reg 3) else none
  stat p := if p = [47, 114, 47, 108] then some .dir else if p = [47, 114, 47, 100] then some .dir
    else if p = [47, 114, 47, 108, 47, 97] ∨ p = [47, 114, 47, 100, 47, 97] then some (.reg 3) else none
  realpath p := if p = [47, 114, 47, 108] then some [47, 114, 47, 100] else some p

theorem C62_violated_twice : ∃ (s : XState), explore twiceDisk { follow := true } loopRoot 5 = some s ∧ s.hasError = true ∧ s.failedDirs = [] ∧
    SourceFile twiceDisk { follow := true } loopRoot [100, 47, 97] 3 (loopRoot ++ [100, 47, 97]) ∧
    s.files.map XFile.rel = [[108, 47, 97]] ∧
    ∀ i : SenderInput, i.failedDirs = s.failedDirs → i.failedSources = [] → i.totalFileSize = ((s.files.map fun f => (f.size : Int)).sum) →
      i.threads.map (·.effDataBytes) = [3] → (∃ t ∈ i.threads, t.errorCode = eOK) → (senderReport i).errorCode = eOK := by
  refine ⟨_, rfl, by decide +kernel, by decide +kernel, ?_, by decide +kernel, ?_⟩
  · refine ⟨[100, 47], ⟨[97], .reg⟩, ?_, ⟨⟨_, _, rfl, by decide +kernel⟩, by decide, by decide⟩, rfl, .plain (by decide +kernel) (by decide), wanted_iff.1 rfl⟩
    exact Below.sub (rel := []) ⟨[100], .dir⟩ .top ⟨⟨_, _, rfl, by decide +kernel⟩, by decide, by decide⟩ ⟨_, .plain (by decide +kernel) (by decide)⟩ (by simp)
  · intro i h1 h2 h3 h4 h5
    refine C22_success_reported i ?_ ?_ h2 h5
    · rw [h3, h4]; decide +kernel
    · rw [h1]; decide +kernel

/-! ### C63 -/

/-- What discovery hands to the queue. -/
def XFile.toRec (f : XFile) : FileRec := ⟨f.rel, f.size⟩

/-- C63, in part: with deletion of extra files, whatever the order in which files are
discovered, sent and the list of the receiver arrives: no file is deleted that discovery can see in the source.
Missing: files in what could not be read, see `C63_violated`. -/
theorem C63_present_not_deleted_partial (d : DiskView) (c : XCfg) (root : Bytes) (fuel : Nat) (x : XState) (ht : Truthful d root)
    (hx : explore d c root fuel = some x) (hok : c.follow = false ∨ x.hasError = false) (mb : Int) (evs : List QEvent) (s : QSys)
    (hl : ListFirst evs) (infos : List FileChunksInfo) (h1 : installedLists evs = [infos]) (hfin : discoveryFinished evs = true)
    (hdisc : discoveredFiles evs = x.files.map XFile.toRec) (h : qRun (QSys.init mb true) evs = .ok s) :
    ∀ b ∈ s.created, isDeletion b = true → ¬ ∃ n full, SourceFile d c root b.name n full := by
  intro b hb hdel
  rintro ⟨n, full, hsf⟩
  have h2 := ((C29_deletions_exact mb evs s hl infos h1 hfin h).1 b.name).1 ⟨b, hb, hdel, rfl⟩
  have h3 : (⟨full, b.name, n⟩ : XFile) ∈ x.files := ((C60_exact d c root fuel x ht hx hok).1 ⟨full, b.name, n⟩).2 hsf
  exact h2.2 (XFile.toRec ⟨full, b.name, n⟩) (by rw [hdisc]; exact List.mem_map_of_mem h3) rfl

/-- The receiver has "d/b" and "z"; the source has "a" and "d/b"; "z" is deleted. -/
example : ∃ x s, explore loopDisk {} loopRoot 5 = some x ∧ x.hasError = false ∧
    qRun (QSys.init 16 true) ([.setPrev [⟨1, [100, 47, 98], 5, [⟨0, 5⟩]⟩, ⟨2, [122], 5, [⟨0, 5⟩]⟩]] ++ (x.files.map fun f => QEvent.discover f.toRec) ++
      [.finishDiscovery]) = .ok s ∧ (s.created.filter isDeletion).map Source.name = [[122]] :=
  ⟨_, _, rfl, by decide +kernel, rfl, by decide +kernel⟩

/-- C63 is violated: the directory "d/" of the source cannot be opened, and the receiver
has a file "d/b"; it is deleted, although the source was only unreadable. -/
theorem C63_violated : ∃ (d : DiskView) (root : Bytes) (x : XState) (s : QSys) (infos : List FileChunksInfo), Truthful d root ∧
    explore d {} root 5 = some x ∧ root ++ [100, 47] ∈ x.failedDirs ∧ infos.map FileChunksInfo.fileName = [[100, 47, 98]] ∧
    qRun (QSys.init 16 true) ([.setPrev infos] ++ (x.files.map fun f => QEvent.discover f.toRec) ++ [.finishDiscovery]) = .ok s ∧
    ∃ b ∈ s.created, isDeletion b = true ∧ b.name = [100, 47, 98] := by
  refine ⟨closedDisk, loopRoot, _, _, [⟨1, [100, 47, 98], 5, [⟨0, 5⟩]⟩], closedDisk_truthful, rfl, by decide +kernel, rfl, rfl, ?_⟩
  decide +kernel

/-- Finding: when the request asks for resumption, extra files are deleted although the
option `delete_extra_files` is off (Sender.cpp:326-327 tests the flag for resumption again). -/
theorem C63_deleted_without_option (version : Int) (h : 26 ≤ version) : deletionEnabled true false false version = true := by
  simp [deletionEnabled, h]

/-- If resumption is asked for by the option only, extra files are deleted exactly if the
option for that is on and the protocol knows it. -/
theorem C63_option (optResume optDelete : Bool) (version : Int) :
    deletionEnabled false optResume optDelete version = true ↔ optResume = true ∧ optDelete = true ∧ 26 ≤ version := by
  simp [deletionEnabled, and_assoc]

example : deletionEnabled false true true 32 = true ∧ deletionEnabled false true false 32 = false := by decide

/-! ### C64 -/

/-- The size a listed file has: the one given, or the one on disk. -/
def listedSize (statSize : Bytes → Option Nat) (root : Bytes) (f : LFile) : Option Nat :=
  if f.size < 0 then statSize (root ++ f.name) else some f.size.toNat

theorem enqueueFiles_spec (statSize : Bytes → Option Nat) (root : Bytes) (l : List LFile) :
    ∃ done rest, l = done ++ rest ∧ (∀ f ∈ done, (listedSize statSize root f).isSome = true) ∧
      (enqueueFiles statSize root l).1 = done.map (fun f => ⟨root ++ f.name, f.name, (listedSize statSize root f).getD 0⟩) ∧
      (((enqueueFiles statSize root l).2 = ([], true) ∧ rest = []) ∨
        ∃ f rest', rest = f :: rest' ∧ listedSize statSize root f = none ∧ (enqueueFiles statSize root l).2 = ([f.name], false)) := by
  induction l with
  | nil => exact ⟨[], [], rfl, by simp, rfl, .inl ⟨rfl, rfl⟩⟩
  | cons f l ih =>
    obtain ⟨done, rest, h1, h2, h3, h4⟩ := ih
    have hdef : enqueueFiles statSize root (f :: l) = match listedSize statSize root f with
      | none => ([], [f.name], false)
      | some n => (⟨root ++ f.name, f.name, n⟩ :: (enqueueFiles statSize root l).1, (enqueueFiles statSize root l).2) := rfl
    cases hs : listedSize statSize root f with
    | none =>
      rw [hs] at hdef
      exact ⟨[], f :: l, rfl, by simp, by rw [hdef]; rfl, .inr ⟨f, l, rfl, hs, by rw [hdef]⟩⟩
    | some n =>
      rw [hs] at hdef
      refine ⟨f :: done, rest, by rw [h1]; rfl, ?_, ?_, ?_⟩
      · intro g hg
        rcases List.mem_cons.1 hg with rfl | hg
        · rw [hs]; rfl
        · exact h2 g hg
      · rw [hdef]; simp only [h3, List.map_cons, hs, Option.getD_some]
      · rw [hdef]; exact h4

theorem enqueueLists_spec (statSize : Bytes → Option Nat) (root : Bytes) (ls : List (List LFile)) :
    ∃ done rest, ls.flatten = done ++ rest ∧ (∀ f ∈ done, (listedSize statSize root f).isSome = true) ∧
      (enqueueLists statSize root ls).1 = done.map (fun f => ⟨root ++ f.name, f.name, (listedSize statSize root f).getD 0⟩) ∧
      (((enqueueLists statSize root ls).2 = ([], true) ∧ rest = []) ∨
        ∃ f rest', rest = f :: rest' ∧ listedSize statSize root f = none ∧ (enqueueLists statSize root ls).2 = ([f.name], false)) := by
  induction ls with
  | nil => exact ⟨[], [], rfl, by simp, rfl, .inl ⟨rfl, rfl⟩⟩
  | cons l ls ih =>
    obtain ⟨done, rest, h1, h2, h3, h4⟩ := ih
    obtain ⟨done1, rest1, g1, g2, g3, g4⟩ := enqueueFiles_spec statSize root l
    have hdef : enqueueLists statSize root (l :: ls) = match enqueueFiles statSize root l with
      | (files, failed, false) => (files, failed, false)
      | (files, failed, true) => (files ++ (enqueueLists statSize root ls).1, failed ++ (enqueueLists statSize root ls).2.1, (enqueueLists statSize root ls).2.2) := rfl
    generalize he : enqueueFiles statSize root l = r at *
    obtain ⟨files, failed, res⟩ := r
    rcases g4 with ⟨g4, rfl⟩ | ⟨f, rest', rfl, g5, g6⟩
    · simp only [Prod.mk.injEq] at g3 g4
      obtain ⟨rfl, rfl⟩ := g4
      simp only [List.nil_append] at hdef
      refine ⟨done1 ++ done, rest, ?_, ?_, ?_, ?_⟩
      · rw [List.flatten_cons, g1, h1]; simp
      · intro f hf
        rcases List.mem_append.1 hf with hf | hf
        · exact g2 f hf
        · exact h2 f hf
      · rw [hdef]; simp only [g3, h3, List.map_append]
      · rw [hdef]; exact h4
    · simp only [Prod.mk.injEq] at g3 g6
      obtain ⟨rfl, rfl⟩ := g6
      simp only at hdef
      refine ⟨done1, f :: rest' ++ ls.flatten, ?_, g2, ?_, .inr ⟨f, rest' ++ ls.flatten, rfl, g5, ?_⟩⟩
      · rw [List.flatten_cons, g1]; simp
      · rw [hdef]; exact g3
      · rw [hdef]

/-- C64: if the report of the sender is OK, then every file of the list, and of the lists
generated later, was discovered, in order, as it was given: under its name, with the size given or, where none was, that on disk. -/
theorem C64_list_exact (statSize : Bytes → Option Nat) (root : Bytes) (ls : List (List LFile)) (i : SenderInput)
    (hi : ∀ n ∈ (enqueueLists statSize root ls).2.1, ∃ f ∈ i.failedSources, f.id = n ∧ f.localErr = eBYTE_SOURCE_READ_ERROR)
    (hok : (senderReport i).errorCode = eOK) :
    (∀ f ∈ ls.flatten, (listedSize statSize root f).isSome = true) ∧
    (enqueueLists statSize root ls).1 = ls.flatten.map (fun f => ⟨root ++ f.name, f.name, (listedSize statSize root f).getD 0⟩) := by
  obtain ⟨done, rest, h1, h2, h3, h4⟩ := enqueueLists_spec statSize root ls
  rcases h4 with ⟨-, rfl⟩ | ⟨f, rest', rfl, h5, h6⟩
  · rw [List.append_nil] at h1
    rw [h1]
    exact ⟨h2, h3⟩
  · exfalso
    obtain ⟨g, hg, -, he⟩ := hi f.name (by rw [h6]; simp)
    have := (C22_success_means_sent i hok).2.2.1 g hg
    have := (moreInteresting_ok.1 this).1
    rw [he] at this
    cases this

/-- C64: files up to one that cannot be examined are discovered as they were given; this one is recorded as failed,
and those after it are not looked at. -/
theorem C64_up_to_failure (statSize : Bytes → Option Nat) (root : Bytes) (ls : List (List LFile)) (done rest : List LFile) (f : LFile)
    (hl : ls.flatten = done ++ f :: rest) (hd : ∀ g ∈ done, (listedSize statSize root g).isSome = true) (hf : listedSize statSize root f = none) :
    enqueueLists statSize root ls =
      (done.map (fun f => ⟨root ++ f.name, f.name, (listedSize statSize root f).getD 0⟩), [f.name], false) := by
  obtain ⟨done', rest', h1, h2, h3, h4⟩ := enqueueLists_spec statSize root ls
  rw [hl] at h1
  have hsome : ∀ g : LFile, (listedSize statSize root g).isSome = true → listedSize statSize root g ≠ none := by
    intro g h h'; rw [h'] at h; cases h
  have key : done' = done ∧ rest' = f :: rest := by
    rcases List.append_eq_append_iff.1 h1 with ⟨a, ha, hb⟩ | ⟨a, ha, hb⟩
    · cases a with
      | nil => simp at ha hb; exact ⟨ha, hb.symm⟩
      | cons b a =>
        simp only [List.cons_append, List.cons.injEq] at hb
        exfalso
        exact hsome b (h2 b (by rw [ha]; simp)) (by rw [← hb.1]; exact hf)
    · cases a with
      | nil => simp at ha hb; exact ⟨ha.symm, hb⟩
      | cons b a =>
        exfalso
        rcases h4 with ⟨-, h4⟩ | ⟨g, r, h4, h5, -⟩
        · rw [hb] at h4; simp at h4
        · rw [hb] at h4
          simp only [List.cons_append, List.cons.injEq] at h4
          exact hsome b (hd b (by rw [ha]; simp)) (by rw [h4.1]; exact h5)
  obtain ⟨rfl, rfl⟩ := key
  rcases h4 with ⟨-, h4⟩ | ⟨g, r, h4, h5, h6⟩
  · cases h4
  · simp only [List.cons.injEq] at h4
    rw [← h4.1] at h6
    exact Prod.ext h3 h6

/-- "a" of 3 bytes, "x" does not exist, "c" is not reached. -/
example : enqueueLists (fun p => if p = [47, 114, 47, 97] then some 3 else none) loopRoot [[⟨[97], -1⟩], [⟨[98], 7⟩, ⟨[120], -1⟩, ⟨[99], 7⟩]] =
    ([⟨[47, 114, 47, 97], [97], 3⟩, ⟨[47, 114, 47, 98], [98], 7⟩], [[120]], false) := by decide +kernel

end Wdt
