import Mathlib.Tactic.NormNum
import Mathlib.Data.Rat.Floor
import Verif.Model.CmdLine
import Verif.Lemmas.Uri
/-
C80: options given by the user are honoured.  C81: the block size that is asked for is used.
C82: a manifest is read as it was written.
-/
namespace Wdt

/-! ## C80 -/

/-- An option given by the user keeps its value whatever the option type; the only exception is the
documented one: giving `start_port` implies `static_ports`. -/
theorem C80_user_wins (o : Opts) (ty : String) (user : List String) :
    ("num_ports" ∈ user → (modifyOptions o ty user).numPorts = o.numPorts) ∧
    ("block_size_mbytes" ∈ user → (modifyOptions o ty user).blockSizeMb = o.blockSizeMb) ∧
    ("disable_preallocation" ∈ user → (modifyOptions o ty user).disablePrealloc = o.disablePrealloc) ∧
    ("resume_using_dir_tree" ∈ user → (modifyOptions o ty user).resumeDirTree = o.resumeDirTree) ∧
    (modifyOptions o ty user).startPort = o.startPort ∧
    (modifyOptions o ty user).bufferSize = o.bufferSize ∧
    ("start_port" ∉ user → (modifyOptions o ty user).staticPorts = o.staticPorts) ∧
    (o.staticPorts = true → (modifyOptions o ty user).staticPorts = true) := by
  unfold modifyOptions changeIf
  split
  · simp +contextual
  · split
    · simp_all
    · simp

/-- What the user leaves open gets the values of the option type: 3 ports, whole files, no
preallocation and resumption by directory tree for disks; otherwise it keeps the values that the
options have. -/
theorem C80_type_defaults (o : Opts) (user : List String) :
    ("num_ports" ∉ user → (modifyOptions o "disk" user).numPorts = 3) ∧
    ("block_size_mbytes" ∉ user → (modifyOptions o "disk" user).blockSizeMb = -1) ∧
    ("disable_preallocation" ∉ user → (modifyOptions o "disk" user).disablePrealloc = true) ∧
    ("resume_using_dir_tree" ∉ user → (modifyOptions o "disk" user).resumeDirTree = true) ∧
    ∀ ty, ty ≠ "disk" → (modifyOptions o ty user).numPorts = o.numPorts ∧
      (modifyOptions o ty user).blockSizeMb = o.blockSizeMb ∧
      (modifyOptions o ty user).disablePrealloc = o.disablePrealloc ∧
      (modifyOptions o ty user).resumeDirTree = o.resumeDirTree := by
  refine ⟨?_, ?_, ?_, ?_, ?_⟩
  · intro h; simp [modifyOptions, changeIf, h]
  · intro h; simp [modifyOptions, changeIf, h]
  · intro h; simp [modifyOptions, changeIf, h]
  · intro h; simp [modifyOptions, changeIf, h]
  · intro ty h
    unfold modifyOptions
    rw [if_neg h]
    split <;> simp

/-- Resumption by directory tree needs preallocation to be off, otherwise `Receiver::init` trips a
check (Receiver.cpp:142-145).  The disk type leads there exactly if the user asked for preallocation
and did not switch this resumption off. -/
theorem C80_disk_consistent (o : Opts) (user : List String) :
    ((modifyOptions o "disk" user).resumeDirTree = true ∧ (modifyOptions o "disk" user).disablePrealloc = false) ↔
      "disable_preallocation" ∈ user ∧ o.disablePrealloc = false ∧
        ("resume_using_dir_tree" ∈ user → o.resumeDirTree = true) := by
  by_cases h1 : "disable_preallocation" ∈ user <;> by_cases h2 : "resume_using_dir_tree" ∈ user <;>
    simp [modifyOptions, changeIf, h1, h2, and_comm]

example : ¬ ((modifyOptions {} "disk" []).resumeDirTree = true ∧ (modifyOptions {} "disk" []).disablePrealloc = false) ∧
    (modifyOptions {} "disk" ["disable_preallocation"]).resumeDirTree = true ∧
    (modifyOptions {} "disk" ["disable_preallocation"]).disablePrealloc = false := by decide

/-- A receiver for which the user gave `start_port` listens on the ports from there on, unless the option
type is "disk". -/
theorem C80_start_port_partial (o : Opts) (ty : String) (user : List String) (h : "start_port" ∈ user)
    (ht : ty ≠ "disk") (i : Nat) : listenPort (modifyOptions o ty user) i = some (o.startPort + i) := by
  unfold modifyOptions
  rw [if_neg ht]
  split
  · simp [listenPort]
  · rename_i hn
    simp [h] at hn
    simp [listenPort, hn]

example : "start_port" ∈ ["num_ports", "start_port"] ∧ "flash" ≠ "disk" ∧
    listenPort (modifyOptions { startPort := 5000, numPorts := 2 } "flash" ["num_ports", "start_port"]) 1 = some 5001 := by
  decide

/-- With option type "disk" it listens on any free ports instead, although giving `start_port` is
documented to imply `static_ports` (WdtFlags.cpp.inc:21-22): `modifyOptions` returns before it gets
there (WdtOptions.cpp:37-46). -/
theorem C80_start_port_violated (o : Opts) (user : List String) (ho : o.staticPorts = false) (i : Nat) :
    listenPort (modifyOptions o "disk" user) i = none := by
  simp [listenPort, modifyOptions, ho]

example : listenPort (modifyOptions { startPort := 5000 } "disk" ["start_port"]) 0 = none := by decide

/-! ## C81 -/

theorem truncI64_int (k : Int) (h : -9223372036854775808 ≤ k ∧ k ≤ 9223372036854775807) : truncI64 (k : ℚ) = .ok k := by
  have h1 : (k : ℚ).floor = k := Rat.floor_intCast k
  have h2 : (-(k : ℚ)).floor = -k := by
    rw [← Int.cast_neg]; exact Rat.floor_intCast (-k)
  unfold truncI64
  simp only [h1, h2, Int.neg_neg, ite_self]
  rw [if_pos h]

/-- A block size of a whole number of megabytes is used as it is: positive: files are split into blocks of
so many megabytes and the receiver is told that; zero or negative: files are not split, and the
receiver is told that. -/
theorem C81_whole_partial (o : Opts) (k : Int) (hk : o.blockSizeMb = k) (h : -8796093022208 ≤ k ∧ k < 8796093022208) :
    queueBlockSize o = .ok (if 0 < k then some (k * 2 ^ 20) else none) ∧ toldDisabled o = decide (k ≤ 0) := by
  constructor
  · unfold queueBlockSize
    rw [hk, truncI64_int k (by omega)]
    simp only [bind, Except.bind, pure, Except.pure]
    rw [if_neg (by omega)]
    by_cases hp : 0 < k
    · rw [if_pos (by omega), if_pos hp]; norm_num
    · rw [if_neg (by omega), if_neg hp]
  · simp only [toldDisabled, hk]
    norm_cast

example : ({ blockSizeMb := 16 } : Opts).blockSizeMb = ((16 : Int) : ℚ) ∧
    queueBlockSize { blockSizeMb := 16 } = .ok (some 16777216) := by
  refine ⟨by norm_num, ?_⟩
  decide +kernel

/-- A block size below one megabyte, though positive, switches splitting off, while the receiver is told
that it is on. -/
theorem C81_fraction_violated (o : Opts) (h0 : 0 < o.blockSizeMb) (h1 : o.blockSizeMb < 1) :
    queueBlockSize o = .ok none ∧ toldDisabled o = false := by
  have hf : o.blockSizeMb.floor = 0 := by
    show ⌊o.blockSizeMb⌋ = 0
    rw [Int.floor_eq_zero_iff]; exact ⟨h0.le, h1⟩
  constructor
  · unfold queueBlockSize truncI64
    simp [hf, h0.le, bind, Except.bind, pure, Except.pure]
  · simp [toldDisabled, h0]

example : (0 : ℚ) < ({ blockSizeMb := 1 / 2 } : Opts).blockSizeMb ∧ ({ blockSizeMb := 1 / 2 } : Opts).blockSizeMb < 1 := by
  norm_num

/-- Other fractions are cut off: 1.5 megabytes become one. -/
theorem C81_cut_violated : queueBlockSize { blockSizeMb := 3 / 2 } = .ok (some 1048576) := by decide +kernel

/-- The buffer is large enough for every header and for what the user asked for, a multiple of the disk
block, and less than one disk block larger than needed. -/
theorem C81_buffer_partial (size : Int) (h1 : -2147483648 ≤ size) (h : size ≤ 2147479552) :
    4150 ≤ updateBufferSize 4150 4096 size ∧ size ≤ updateBufferSize 4150 4096 size ∧
      updateBufferSize 4150 4096 size % 4096 = 0 ∧ updateBufferSize 4150 4096 size < max 4150 size + 4096 := by
  unfold updateBufferSize
  by_cases ha : size < 4150
  · simp only [if_pos ha]
    omega
  · simp only [if_neg ha]
    by_cases hb : size % 4096 ≠ 0
    · simp only [if_pos hb]; omega
    · simp only [if_neg hb]; omega

example : updateBufferSize 4150 4096 5000 = 8192 ∧ updateBufferSize 4150 4096 1 = 8192 := by decide

/-- The largest values of the option become negative. -/
theorem C81_buffer_violated : updateBufferSize 4150 4096 2147483647 < 0 := by decide

/-! ## C82 -/

/-- The documented forms of a line for a file: its name; name and size; name, size and whether to read
it with direct I/O; separated by tabs. -/
inductive ManifestLine (dflt : Bool) : MEntry → Bytes → Prop
  | name {n : Bytes} (h0 : n ≠ []) (h1 : 9 ∉ n) (h2 : 10 ∉ n) : ManifestLine dflt ⟨n, -1, dflt⟩ n
  | sized {n : Bytes} {k : Int} (h0 : n ≠ []) (h1 : 9 ∉ n) (h2 : 10 ∉ n) (hk : -2 ^ 63 ≤ k ∧ k < 2 ^ 63) :
      ManifestLine dflt ⟨n, k, dflt⟩ (n ++ 9 :: intStr k)
  | full {n : Bytes} {k : Int} {b : Bool} (h0 : n ≠ []) (h1 : 9 ∉ n) (h2 : 10 ∉ n) (hk : -2 ^ 63 ≤ k ∧ k < 2 ^ 63) :
      ManifestLine dflt ⟨n, k, b⟩ (n ++ 9 :: (intStr k ++ [9, if b then 49 else 48]))

theorem pieces_mid {d : UInt8} {a b : Bytes} (h : d ∉ a) : pieces d (a ++ d :: b) = a :: pieces d b := by
  induction a with
  | nil => simp [pieces]
  | cons c a ih =>
    simp only [List.mem_cons, not_or] at h
    simp [pieces, Ne.symm h.1, ih h.2]

theorem pieces_end {d : UInt8} {a : Bytes} (h : d ∉ a) : pieces d a = [a] := by
  induction a with
  | nil => simp [pieces]
  | cons c a ih =>
    simp only [List.mem_cons, not_or] at h
    simp [pieces, Ne.symm h.1, ih h.2]

theorem intStr_no {k : Int} (hk : -2 ^ 63 ≤ k ∧ k < 2 ^ 63) : intStr k ≠ [] ∧ 9 ∉ intStr k ∧ 10 ∉ intStr k := by
  obtain ⟨h1, h2⟩ := intStr_chars k (by omega)
  refine ⟨h1, fun h => ?_, fun h => ?_⟩
  · rcases h2 _ h with h | h <;> revert h <;> decide
  · rcases h2 _ h with h | h <;> revert h <;> decide

theorem ManifestLine.no_newline {dflt : Bool} {e : MEntry} {l : Bytes} (h : ManifestLine dflt e l) : l ≠ [] ∧ 10 ∉ l := by
  cases h with
  | name h0 h1 h2 => exact ⟨h0, h2⟩
  | sized h0 h1 h2 hk =>
    refine ⟨by simp, ?_⟩
    simp [h2, (intStr_no hk).2.2]
  | full h0 h1 h2 hk =>
    rename_i b
    refine ⟨by simp, ?_⟩
    simp only [List.mem_append, List.mem_cons, List.not_mem_nil, or_false, not_or]
    refine ⟨h2, by decide, (intStr_no hk).2.2, by decide, ?_⟩
    cases b <;> decide

theorem ManifestLine.read {dflt : Bool} {e : MEntry} {l : Bytes} (h : ManifestLine dflt e l) : readLine dflt l = some e := by
  cases h with
  | name h0 h1 h2 => simp [readLine, splitFields, pieces_end h1, h0]
  | sized h0 h1 h2 hk =>
    rename_i k
    have hn := intStr_no hk
    have hs := strInt_intStr (-9223372036854775808) 9223372036854775807 k (by omega) (by omega) (by omega)
    simp [readLine, splitFields, pieces_mid h1, pieces_end hn.2.1, h0, hn.1, strI64, hs]
  | full h0 h1 h2 hk =>
    rename_i k b
    have hn := intStr_no hk
    have hs := strInt_intStr (-9223372036854775808) 9223372036854775807 k (by omega) (by omega) (by omega)
    cases b
    · have : pieces 9 [48] = [[48]] := by decide
      simp [readLine, splitFields, pieces_mid h1, pieces_mid hn.2.1, this, h0, hn.1, strI64, hs, strBool]
    · have : pieces 9 [49] = [[49]] := by decide
      simp [readLine, splitFields, pieces_mid h1, pieces_mid hn.2.1, this, h0, hn.1, strI64, hs, strBool]

theorem pieces_lines (ls : List Bytes) (h : ∀ l ∈ ls, 10 ∉ l) (t : Bytes) (ht : 10 ∉ t) :
    pieces 10 ((ls.map (· ++ [10])).flatten ++ t) = ls ++ [t] := by
  induction ls with
  | nil => simpa using pieces_end ht
  | cons l ls ih =>
    have hl := h l (by simp)
    simp only [List.map_cons, List.flatten_cons, List.append_assoc, List.cons_append, List.nil_append]
    rw [pieces_mid hl, ih fun x hx => h x (by simp [hx])]

/-- A manifest whose lines have the documented forms is read as the list of files that was meant, in its order,
with or without a newline at the end. -/
theorem C82_read_partial (dflt : Bool) (es : List MEntry) (ls : List Bytes) (h : List.Forall₂ (ManifestLine dflt) es ls) :
    manifestFiles dflt (some (ls.map (· ++ [10])).flatten) = some es ∧
    ∀ e l, ManifestLine dflt e l → manifestFiles dflt (some ((ls.map (· ++ [10])).flatten ++ l)) = some (es ++ [e]) := by
  simp only [manifestFiles]
  have hn : ∀ l ∈ ls, 10 ∉ l := by
    intro l hl
    have ⟨e, he⟩ : ∃ e, ManifestLine dflt e l := by
      induction h with
      | nil => simp at hl
      | cons h1 _ ih =>
        rcases List.mem_cons.1 hl with rfl | hl
        · exact ⟨_, h1⟩
        · exact ih hl
    exact he.no_newline.2
  have hm : ls.mapM (readLine dflt) = some es := by
    clear hn
    induction h with
    | nil => rfl
    | cons h1 _ ih => simp [List.mapM_cons, h1.read, ih]
  constructor
  · have := pieces_lines ls hn [] (by simp)
    rw [List.append_nil] at this
    simp [readManifest, getLines, this, hm]
  · intro e l hl
    have := pieces_lines ls hn l hl.no_newline.2
    have h1 : (ls ++ [l]).mapM (readLine dflt) = some (es ++ [e]) := by
      rw [List.mapM_append]; simp [hm, hl.read]
    simp [readManifest, getLines, this, hl.no_newline.1, h1]

/-- The lines `a⇥5⇥1`, `b⇥7` and `c`. -/
def exManifest : List Bytes := [[97, 9, 53, 9, 49], [98, 9, 55], [99]]

example : List.Forall₂ (ManifestLine false) [⟨[97], 5, true⟩, ⟨[98], 7, false⟩, ⟨[99], -1, false⟩] exManifest :=
  .cons (ManifestLine.full (n := [97]) (k := 5) (b := true) (by decide) (by decide) (by decide) (by decide))
    (.cons (ManifestLine.sized (n := [98]) (k := 7) (by decide) (by decide) (by decide) (by decide))
      (.cons (ManifestLine.name (by decide) (by decide) (by decide)) .nil))

example : readManifest false ((exManifest.map (· ++ [10])).flatten) =
    some [⟨[97], 5, true⟩, ⟨[98], 7, false⟩, ⟨[99], -1, false⟩] := by decide +kernel

theorem pieces_first {d : UInt8} {s p : Bytes} {ps : List Bytes} (h : pieces d s = p :: ps) :
    d ∉ p ∧ ∃ b, s = p ++ b ∧ (b = [] ∨ b.head? = some d) := by
  induction s generalizing p ps with
  | nil => simp only [pieces, List.cons.injEq] at h; rw [← h.1]; simp
  | cons c s ih =>
    rw [pieces] at h
    by_cases hc : c = d
    · rw [if_pos hc] at h
      injection h with h1 h2
      subst h1; subst hc
      exact ⟨by simp, c :: s, rfl, .inr rfl⟩
    · rw [if_neg hc] at h
      cases hp : pieces d s with
      | nil =>
        rw [hp] at h
        cases s with
        | nil => simp [pieces] at hp
        | cons x s =>
          simp only [pieces] at hp
          split at hp
          · simp at hp
          · split at hp <;> simp at hp
      | cons q qs =>
        rw [hp] at h
        injection h with h1 h2
        subst h1
        obtain ⟨i1, b, i2, i3⟩ := ih hp
        exact ⟨by simp [i1, Ne.symm hc], b, by simp [i2], i3⟩

theorem pieces_ne_nil (d : UInt8) (s : Bytes) : pieces d s ≠ [] := by
  cases s with
  | nil => simp [pieces]
  | cons x s =>
    simp only [pieces]
    split
    · simp
    · split <;> simp

theorem splitFields_first {d : UInt8} {s n : Bytes} {r : List Bytes} (h : splitFields d s = n :: r) :
    n ≠ [] ∧ d ∉ n ∧ ∃ a b, s = a ++ n ++ b ∧ (∀ c ∈ a, c = d) ∧ (b = [] ∨ b.head? = some d) := by
  induction s with
  | nil => simp [splitFields, pieces] at h
  | cons c s ih =>
    cases hp : pieces d s with
    | nil => exact absurd hp (pieces_ne_nil d s)
    | cons q qs =>
    by_cases hc : c = d
    · subst hc
      have h' : splitFields c s = n :: r := by
        rw [← h]; simp [splitFields, pieces]
      obtain ⟨h1, h2, a, b, h3, h4, h5⟩ := ih h'
      exact ⟨h1, h2, c :: a, b, by simp [h3], by simpa using h4, h5⟩
    · have hq : pieces d (c :: s) = (c :: q) :: qs := by simp [pieces, hc, hp]
      have hn : n = c :: q := by
        rw [splitFields, hq] at h
        simp at h
        exact h.1.symm
      obtain ⟨i1, b, i2, i3⟩ := pieces_first hq
      exact ⟨by simp [hn], by rw [hn]; exact i1, [], b, by simp [hn, i2], by simp, i3⟩

theorem readLine_first {dflt : Bool} {l : Bytes} {e : MEntry} (h : readLine dflt l = some e) :
    ∃ r, splitFields 9 l = e.name :: r := by
  unfold readLine at h
  split at h
  · rename_i n hs; injection h with h; subst h; exact ⟨_, hs⟩
  · rename_i n s hs
    simp only [Option.map_eq_some_iff] at h
    obtain ⟨k, -, h⟩ := h
    subst h; exact ⟨_, hs⟩
  · rename_i n s d hs
    split at h
    · injection h with h; subst h; exact ⟨_, hs⟩
    · cases h
  · cases h

/-- Everything a manifest says is about the files on its lines: when it is accepted, there is one entry for each line,
and its name is the first thing on the line. -/
theorem C82_accepted (dflt : Bool) (text : Bytes) (es : List MEntry) (h : readManifest dflt text = some es) :
    List.Forall₂ (fun e l => e.name ≠ [] ∧ 9 ∉ e.name ∧ ∃ a b, l = a ++ e.name ++ b ∧ (∀ c ∈ a, c = 9) ∧ (b = [] ∨ b.head? = some 9))
      es (getLines text) := by
  unfold readManifest at h
  generalize getLines text = ls at h
  induction ls generalizing es with
  | nil => simp at h; subst h; exact .nil
  | cons l ls ih =>
    rw [List.mapM_cons] at h
    cases h1 : readLine dflt l with
    | none => simp [h1] at h
    | some e =>
      cases h2 : ls.mapM (readLine dflt) with
      | none => simp [h1, h2] at h
      | some es' =>
        simp [h1, h2] at h
        subst h
        obtain ⟨r, hr⟩ := readLine_first h1
        exact .cons (splitFields_first hr) (ih es' h2)

theorem mapM_none_mem {α β} {f : α → Option β} {l : List α} {x : α} (h : x ∈ l) (hf : f x = none) : l.mapM f = none := by
  induction l with
  | nil => simp at h
  | cons y l ih =>
    rw [List.mapM_cons]
    rcases List.mem_cons.1 h with rfl | h
    · simp [hf]
    · cases f y <;> simp [ih h]

theorem pieces_append (d : UInt8) (a b : Bytes) : pieces d (a ++ d :: b) = pieces d a ++ pieces d b := by
  induction a with
  | nil => simp [pieces]
  | cons c a ih =>
    rw [List.cons_append, pieces, ih]
    by_cases hc : c = d
    · simp [pieces, hc]
    · rw [if_neg hc]
      conv => rhs; rw [pieces, if_neg hc]
      cases hp : pieces d a with
      | nil => exact absurd hp (pieces_ne_nil d a)
      | cons q qs => simp

/-- One empty line ends the process, wherever it stands: before other lines, or as an extra newline
at the end. -/
theorem C82_blank_violated (dflt : Bool) (before after : Bytes) :
    readManifest dflt (before ++ [10, 10] ++ after) = none := by
  have h : pieces 10 (before ++ [10, 10] ++ after) = pieces 10 before ++ [] :: pieces 10 after := by
    rw [show before ++ [10, 10] ++ after = before ++ 10 :: (10 :: after) by simp, pieces_append]
    simp [pieces]
  have hm : ([] : Bytes) ∈ getLines (before ++ [10, 10] ++ after) := by
    simp only [getLines, h]
    split
    · rw [List.dropLast_append_of_ne_nil (by simp)]
      cases hp : pieces 10 after with
      | nil => exact absurd hp (pieces_ne_nil 10 after)
      | cons q qs => simp
    · simp
  exact mapM_none_mem hm (by simp [readLine, splitFields, pieces])

/-- A name, an empty size and a direct I/O flag: the flag is read as the size, and 1 byte of the file is sent. -/
theorem C82_shift_violated (dflt : Bool) (n : Bytes) (h0 : n ≠ []) (h1 : 9 ∉ n) (h2 : 10 ∉ n) :
    readManifest dflt (n ++ [9, 9, 49, 10]) = some [⟨n, 1, dflt⟩] := by
  have h3 : pieces 10 (n ++ [9, 9, 49, 10]) = [n ++ [9, 9, 49], []] := by
    rw [show n ++ [9, 9, 49, 10] = (n ++ [9, 9, 49]) ++ 10 :: [] by simp, pieces_mid (by simp [h2])]
    simp [pieces]
  have h4 : pieces 9 (n ++ [9, 9, 49]) = [n, [], [49]] := by
    rw [show n ++ [9, 9, 49] = n ++ 9 :: [9, 49] by simp, pieces_mid h1]
    simp [pieces]
  have h5 : strI64 [49] = some 1 := by decide
  simp [readManifest, getLines, h3, readLine, splitFields, h4, h0, h5]

/-- A comment in the code says that the size follows after a single space (wdtCmdLine.cpp:362-363).  Then it
becomes part of the name, and the size is not taken into account. -/
theorem C82_space_violated (dflt : Bool) (n : Bytes) (k : Int) (h1 : 9 ∉ n) (h2 : 10 ∉ n)
    (hk : -2 ^ 63 ≤ k ∧ k < 2 ^ 63) :
    manifestFiles dflt (some (n ++ 32 :: (intStr k ++ [10]))) = some [⟨n ++ 32 :: intStr k, -1, dflt⟩] := by
  have hn := intStr_no hk
  have := (C82_read_partial dflt [⟨n ++ 32 :: intStr k, -1, dflt⟩] [n ++ 32 :: intStr k]
    (.cons (.name (by simp) (by simp [h1, hn.2.1]) (by simp [h2, hn.2.2])) .nil)).1
  simpa using this

/-- A manifest that cannot be opened is taken for an empty one: the sender sends no file, and nothing in the
list of files shows it. -/
theorem C82_missing_violated (dflt : Bool) : manifestFiles dflt none = manifestFiles dflt (some []) := by
  simp [manifestFiles, readManifest, getLines, pieces]

end Wdt
