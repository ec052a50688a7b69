import Verif.Model.FileByteSource
/-
C42: reading a block of a file.
-/
namespace Wdt

/-- What an operating system may answer when the contents of the file do not change: at
most what was asked for, at most what there is, and 0 only at the end of the file. -/
def ReadOS.Legal (os : ReadOS) (file : Bytes) : Prop :=
  ∀ k (pos len : Int), 0 ≤ pos → 0 < len → match os k pos len with
    | .err => True
    | .got n => (n : Int) ≤ len ∧ (0 < n → pos + n ≤ file.length) ∧ (n = 0 → (file.length : Int) ≤ pos)

/-- The operating system never fails. -/
def ReadOS.NoErr (os : ReadOS) : Prop := ∀ k pos len, os k pos len ≠ .err

/-- No short reads except at the end of the file, as with direct I/O on a disk. -/
def ReadOS.Full (os : ReadOS) (file : Bytes) : Prop :=
  ∀ k (pos len : Int), match os k pos len with
    | .err => True
    | .got n => (n : Int) = min len (file.length - pos) ∨ n = 0

/-- The block of the file that a source stands for. -/
def blockOf (file : Bytes) (offset size : Nat) : Bytes := (file.drop offset).take size

/-- The first `n` bytes of a block followed by the next `m`. -/
theorem blockOf_append (file : Bytes) (o n m : Nat) :
    blockOf file o n ++ blockOf file (o + n) m = blockOf file o (n + m) := by
  unfold blockOf
  rw [List.take_add, List.drop_drop]

/-- State of the loop: so many bytes were read and sent. -/
structure RdInv (file : Bytes) (o n : Nat) (bl : Nat) (s : FSrc) (buf acc : Bytes) : Prop where
  off : s.offset = o
  sz : s.size = n
  nn : 0 ≤ s.bytesRead
  le : s.bytesRead ≤ n
  op : s.isOpen = true
  al : s.aligned = true → kDiskBlock ∣ bl
  bl : buf.length = bl
  acc : acc = blockOf file o s.bytesRead.toNat

/-- Where the next read begins, and how much it asks for: never more than the buffer
holds. -/
theorem read_plan {s : FSrc} {o n bl : Nat} {buf : Bytes} (ho : s.offset = o) (hs : s.size = n) (h0 : 0 ≤ s.bytesRead)
    (hlt : s.bytesRead < n) (hb : buf.length = bl) (hbl : 0 < bl) (hal : s.aligned = true → kDiskBlock ∣ bl) :
    0 ≤ s.remainder ∧ s.remainder < bl ∧ (s.aligned = false → s.remainder = 0 ∧ s.physical buf = s.logical buf) ∧
    0 ≤ s.seekPos ∧ s.seekPos + s.remainder = o + s.bytesRead ∧ 0 < s.logical buf ∧ s.logical buf ≤ n - s.bytesRead ∧
    s.logical buf + s.remainder ≤ s.physical buf ∧ s.physical buf ≤ bl := by
  have hr : 0 ≤ s.remainder ∧ s.remainder < bl ∧ (s.aligned = true → s.remainder < 4096) ∧ s.remainder ≤ s.offset + s.bytesRead := by
    unfold FSrc.remainder
    split
    · rename_i ha
      have hd := hal ha
      rw [Int.tmod_eq_emod_of_nonneg (by omega)]
      unfold kDiskBlock at *
      omega
    · omega
  obtain ⟨r0, r1, r2, r3⟩ := hr
  have hlog : s.logical buf = min ((bl : Int) - s.remainder) (n - s.bytesRead) := by
    unfold FSrc.logical; rw [hb, hs]
  have hphys : s.logical buf + s.remainder ≤ s.physical buf ∧ s.physical buf ≤ bl := by
    unfold FSrc.physical
    split
    · rename_i ha
      have hd := hal ha
      rw [Int.tdiv_eq_ediv_of_nonneg (by simp only [kDiskBlock] at *; omega)]
      unfold kDiskBlock at *
      omega
    · rename_i ha
      have : s.remainder = 0 := by unfold FSrc.remainder; rw [if_neg ha]
      omega
  refine ⟨r0, r1, ?_, ?_, ?_, by omega, by omega, hphys.1, hphys.2⟩
  · intro ha
    exact ⟨by unfold FSrc.remainder; rw [ha]; rfl, by unfold FSrc.physical; rw [ha]; rfl⟩
  · unfold FSrc.seekPos; omega
  · unfold FSrc.seekPos; omega

/-- The bytes handed out are those of the file. -/
theorem fill_slice (file buf : Bytes) (p m r sz : Nat) (h : p + m ≤ file.length) (h2 : r + sz ≤ m) :
    ((preadFill file buf p m).drop r).take sz = blockOf file (p + r) sz := by
  unfold preadFill blockOf
  rw [Int.toNat_natCast]
  have hl : ((file.drop p).take m).length = m := by simp; omega
  rw [List.drop_append_of_le_length (by omega), List.take_append_of_le_length (by simp; omega), List.drop_take, List.drop_drop,
    List.take_take, Nat.min_eq_left (by omega)]

theorem fill_length (file buf : Bytes) (p m : Nat) (h : p + m ≤ file.length) (hb : m ≤ buf.length) :
    (preadFill file buf p m).length = buf.length := by
  unfold preadFill
  rw [Int.toNat_natCast]
  simp; omega

/-- One read. -/
theorem read_step {file : Bytes} {o n bl : Nat} {s : FSrc} {buf acc : Bytes} {os : ReadOS} {k : Nat}
    (h : RdInv file o n bl s buf acc) (hl : os.Legal file) (hbl : 0 < bl) (hfin : s.finished = false)
    (hpl : s.aligned = true → os.Full file ∧ o + n ≤ file.length) :
    ((s.read file buf (os k)).src.hasError = true ∧
      (os k s.seekPos (s.physical buf) = .err ∨ (s.aligned = false ∧ (file.length : Int) ≤ o + s.bytesRead))) ∨
    ∃ size bytes, (s.read file buf (os k)).out = some (size, bytes) ∧ 0 < size ∧ (s.read file buf (os k)).src.hasError = false ∧
      s.bytesRead < (s.read file buf (os k)).src.bytesRead ∧ (s.read file buf (os k)).src.aligned = s.aligned ∧
      RdInv file o n bl (s.read file buf (os k)).src (s.read file buf (os k)).buf (acc ++ bytes) ∧
      o + (s.read file buf (os k)).src.bytesRead ≤ file.length := by
  have hlt : s.bytesRead < n := by
    have := h.le
    rcases Int.lt_or_eq_of_le this with h1 | h1
    · exact h1
    · exfalso
      unfold FSrc.finished FSrc.hasError at hfin
      rw [h.op, h.sz, h1] at hfin
      simp at hfin
  obtain ⟨p1, p2, p3, p4, p5, p6, p7, p8, p9⟩ := read_plan h.off h.sz h.nn hlt h.bl hbl h.al
  have hcond : (s.hasError || s.finished) = false := by
    rw [hfin, FSrc.hasError, h.op]; rfl
  have hL := hl k s.seekPos (s.physical buf) p4 (by omega)
  have hF : s.aligned = true → match os k s.seekPos (s.physical buf) with
    | .err => True
    | .got m => (m : Int) = min (s.physical buf) (file.length - s.seekPos) ∨ m = 0 := fun ha => (hpl ha).1 _ _ _
  unfold FSrc.read
  rw [if_neg (by rw [hcond]; simp)]
  generalize os k s.seekPos (s.physical buf) = a at hL hF ⊢
  match a with
  | .err => exact .inl ⟨rfl, .inl rfl⟩
  | .got 0 =>
    refine .inl ⟨rfl, .inr ?_⟩
    simp only at hL
    have := hL.2.2 trivial
    cases ha : s.aligned with
    | true => have := (hpl ha).2; omega
    | false => exact ⟨rfl, by have := (p3 ha).1; omega⟩
  | .got (m + 1) =>
    refine .inr ?_
    simp only at hL hF ⊢
    obtain ⟨l1, l2, -⟩ := hL
    have l2 := l2 (by omega)
    have hsz : 0 < min (((m + 1 : Nat) : Int) - s.remainder) (s.logical buf) := by
      cases ha : s.aligned with
      | true =>
        have := hF ha
        have := (hpl ha).2
        omega
      | false => have := (p3 ha).1; omega
    generalize hsize : min (((m + 1 : Nat) : Int) - s.remainder) (s.logical buf) = size at hsz ⊢
    have hbytes : ((preadFill file buf s.seekPos (m + 1)).drop s.remainder.toNat).take size.toNat
        = blockOf file (o + s.bytesRead.toNat) size.toNat := by
      have e : s.seekPos = ((s.seekPos.toNat : Nat) : Int) := by omega
      rw [e, fill_slice file buf s.seekPos.toNat (m + 1) s.remainder.toNat size.toNat (by omega) (by omega)]
      have := h.nn
      congr 1
      omega
    refine ⟨size, _, rfl, hsz, by simp only [FSrc.hasError, h.op]; rfl, by show s.bytesRead < s.bytesRead + size; omega, trivial, ?_, ?_⟩
    · refine { off := h.off, sz := h.sz, nn := by have := h.nn; simp only; omega, le := by simp only; omega, op := h.op, al := h.al, bl := ?_, acc := ?_ }
      · have e : s.seekPos = ((s.seekPos.toNat : Nat) : Int) := by omega
        rw [e, fill_length file buf _ _ (by omega) (by rw [h.bl]; omega)]
        exact h.bl
      · rw [hbytes, h.acc, blockOf_append]
        congr 1
        have := h.nn
        simp only
        omega
    · show (o : Int) + (s.bytesRead + size) ≤ file.length
      omega

/-- The whole loop. -/
theorem sendLoop_spec {file : Bytes} {o n bl : Nat} {os : ReadOS} (hl : os.Legal file) (hbl : 0 < bl) (al : Bool)
    (hpl : al = true → os.Full file ∧ o + n ≤ file.length) (fuel k : Nat) (s : FSrc) (buf acc : Bytes)
    (hs : s.aligned = al) (h : RdInv file o n bl s buf acc) :
    match sendLoop file os fuel k s buf acc with
    | .sent b => b = blockOf file o n ∧ (n = 0 ∨ n = s.bytesRead ∨ o + n ≤ file.length)
    | .readError b => b <+: blockOf file o n ∧ (os.NoErr → file.length < o + n)
    | .crash => False
    | .running => (fuel : Int) ≤ n - s.bytesRead := by
  induction fuel generalizing k s buf acc with
  | zero => have := h.le; simp only [sendLoop]; omega
  | succ fuel ih =>
    unfold sendLoop
    by_cases hfin : s.finished = true
    · rw [if_pos hfin]
      simp only [FSrc.finished, Bool.and_eq_true, beq_iff_eq] at hfin
      have hbr : s.bytesRead = n := by rw [hfin.1, h.sz]
      refine ⟨?_, by omega⟩
      rw [h.acc, hbr, Int.toNat_natCast]
    · rw [if_neg hfin]
      simp only
      rcases read_step (k := k) h hl hbl (by simpa using hfin) (fun ha => hpl (hs ▸ ha)) with ⟨h1, h2⟩ | ⟨size, bytes, e1, e2, e3, e4, e5, e6, e7⟩
      · rw [if_pos h1]
        refine ⟨?_, ?_⟩
        · rw [h.acc]
          exact ⟨blockOf file (o + s.bytesRead.toNat) (n - s.bytesRead.toNat), by
            rw [blockOf_append]; congr 1; have := h.le; have := h.nn; omega⟩
        · intro hne
          rcases h2 with h2 | ⟨-, h2⟩
          · exact absurd h2 (hne _ _ _)
          · have := h.le
            have hlt : s.bytesRead ≠ n := by
              intro e
              apply hfin
              unfold FSrc.finished FSrc.hasError
              rw [h.op, h.sz, e]; simp
            omega
      · rw [if_neg (by rw [e3]; simp), e1]
        simp only
        rw [if_pos e2]
        have := ih (k + 1) _ _ _ (e5.trans hs) e6
        split at this
        · rename_i b hb
          obtain ⟨a1, a2⟩ := this
          refine ⟨a1, ?_⟩
          rcases a2 with a2 | a2 | a2
          · exact .inl a2
          · right; right; omega
          · exact .inr (.inr a2)
        · rename_i b hb
          exact this
        · exact this.elim
        · rename_i hb
          omega

/-- A block of a file, opened for reading. -/
def opened (o n : Nat) (direct : Bool) : FSrc := FSrc.open { size := n, offset := o, aligned := false } direct true

theorem opened_inv (file : Bytes) (o n : Nat) (direct : Bool) (buf : Bytes) (hd : direct = true → kDiskBlock ∣ buf.length) :
    RdInv file o n buf.length (opened o n direct) buf [] :=
  { off := rfl, sz := rfl, nn := Int.le_refl _, le := Int.natCast_nonneg _, op := rfl
    al := by cases direct <;> simp_all [opened, FSrc.open], bl := rfl, acc := by simp [opened, FSrc.open, blockOf] }

/-- **C42.**  Whatever short reads the operating system returns, sending a block of a file
that is long enough, and that can be read, sends exactly the bytes of the file in
[offset, offset + size), after at most `size` reads. -/
theorem C42_reads_block (file : Bytes) (os : ReadOS) (o n : Nat) (buf : Bytes) (hl : os.Legal file) (he : os.NoErr)
    (hb : 0 < buf.length) (hlen : o + n ≤ file.length) :
    sendLoop file os (n + 1) 0 (opened o n false) buf [] = .sent (blockOf file o n) := by
  have h := sendLoop_spec (o := o) (n := n) hl hb false (by simp) (n + 1) 0 (opened o n false) buf [] rfl
    (opened_inv file o n false buf (by simp))
  split at h
  · rename_i b hb; rw [hb, h.1]
  · have := h.2 he; omega
  · exact h.elim
  · simp only [opened, FSrc.open] at h; omega

/-- **C42 (errors).**  If reads may fail, the result is that block or a read error, which
is reported, after a prefix of the block. -/
theorem C42_error_reported (file : Bytes) (os : ReadOS) (o n : Nat) (buf : Bytes) (hl : os.Legal file) (hb : 0 < buf.length) :
    (sendLoop file os (n + 1) 0 (opened o n false) buf [] = .sent (blockOf file o n) ∧ (0 < n → o + n ≤ file.length)) ∨
    ∃ b, sendLoop file os (n + 1) 0 (opened o n false) buf [] = .readError b ∧ b <+: blockOf file o n := by
  have h := sendLoop_spec (o := o) (n := n) hl hb false (by simp) (n + 1) 0 (opened o n false) buf [] rfl
    (opened_inv file o n false buf (by simp))
  split at h
  · rename_i b hb
    refine .inl ⟨by rw [hb, h.1], fun h0 => ?_⟩
    have := h.2
    simp only [opened, FSrc.open] at this
    omega
  · rename_i b hb
    exact .inr ⟨b, hb, h.1⟩
  · exact h.elim
  · simp only [opened, FSrc.open] at h; omega

/-- **C42 (short file).**  A file that is shorter than the block, because it was truncated
after it was found, yields an error. -/
theorem C42_short_file (file : Bytes) (os : ReadOS) (o n : Nat) (buf : Bytes) (hl : os.Legal file) (hb : 0 < buf.length)
    (hn : 0 < n) (hlen : file.length < o + n) :
    ∃ b, sendLoop file os (n + 1) 0 (opened o n false) buf [] = .readError b ∧ b <+: blockOf file o n := by
  rcases C42_error_reported file os o n buf hl hb with ⟨-, h⟩ | h
  · have := h hn; omega
  · exact h

/-- **C42 (again).**  A block is read again after a connection broke: whatever was read of
it before, and also if the file was closed or a read failed, after its start is moved by `m`
bytes and it is opened again exactly the rest is sent. -/
theorem C42_again (file : Bytes) (os : ReadOS) (o n m : Nat) (s : FSrc) (buf : Bytes) (hl : os.Legal file) (he : os.NoErr)
    (hb : 0 < buf.length) (hlen : o + n ≤ file.length) (ho : s.offset = o) (hn : s.size = n) (hm : m ≤ n)
    (ha : s.aligned = false) :
    sendLoop file os (n - m + 1) 0 ((s.advance m).open false true) buf [] = .sent (blockOf file (o + m) (n - m)) := by
  have hs : (s.advance m).open false true = opened (o + m) (n - m) false := by
    obtain ⟨size, offset, bytesRead, aligned, isOpen⟩ := s
    simp only at ho hn ha
    subst ho hn ha
    simp only [FSrc.advance, FSrc.open, opened, FSrc.mk.injEq, Bool.or_false, and_true]
    omega
  rw [hs]
  exact C42_reads_block file os (o + m) (n - m) buf hl he hb (by omega)

/-- **C42 for direct I/O (in part).**  With direct I/O, a buffer of whole disk blocks and an
operating system that returns short counts only at the end of the file, a block that lies
within the file is sent exactly.

Missing: other short counts (`C42_violated_direct_short_read`) and files that have become
shorter (`C42_violated_direct_short_file`): the sender process dies. -/
theorem C42_direct_partial (file : Bytes) (os : ReadOS) (o n : Nat) (buf : Bytes) (hl : os.Legal file) (he : os.NoErr)
    (hf : os.Full file) (hb : 0 < buf.length) (hd : kDiskBlock ∣ buf.length) (hlen : o + n ≤ file.length) :
    sendLoop file os (n + 1) 0 (opened o n true) buf [] = .sent (blockOf file o n) := by
  have h := sendLoop_spec (o := o) (n := n) hl hb true (fun _ => ⟨hf, hlen⟩) (n + 1) 0 (opened o n true) buf [] rfl
    (opened_inv file o n true buf (fun _ => hd))
  split at h
  · rename_i b hb; rw [hb, h.1]
  · have := h.2 he; omega
  · exact h.elim
  · simp only [opened, FSrc.open] at h; omega

/-- **C42 (the buffer).**  No read asks for more than the buffer holds: answers to larger
requests do not matter. -/
theorem C42_within_buffer (file : Bytes) (os os' : ReadOS) (o n : Nat) (direct : Bool) (buf : Bytes) (hl : os.Legal file)
    (hb : 0 < buf.length) (hd : kDiskBlock ∣ buf.length) (hdir : direct = true → os.Full file ∧ o + n ≤ file.length)
    (hsame : ∀ k (pos len : Int), 0 ≤ pos → 0 < len → len ≤ buf.length → os k pos len = os' k pos len) (fuel : Nat) :
    sendLoop file os fuel 0 (opened o n direct) buf [] = sendLoop file os' fuel 0 (opened o n direct) buf [] := by
  have key : ∀ (fuel k : Nat) (s : FSrc) (b acc : Bytes), s.aligned = direct → RdInv file o n buf.length s b acc →
      sendLoop file os fuel k s b acc = sendLoop file os' fuel k s b acc := by
    intro fuel
    induction fuel with
    | zero => intros; rfl
    | succ fuel ih =>
      intro k s b acc hs h
      by_cases hfin : s.finished = true
      · unfold sendLoop; rw [if_pos hfin, if_pos hfin]
      · have hlt : s.bytesRead < n := by
          have := h.le
          rcases Int.lt_or_eq_of_le this with h1 | h1
          · exact h1
          · exfalso
            unfold FSrc.finished FSrc.hasError at hfin
            rw [h.op, h.sz, h1] at hfin
            simp at hfin
        obtain ⟨p1, p2, p3, p4, p5, p6, p7, p8, p9⟩ := read_plan h.off h.sz h.nn hlt h.bl hb h.al
        have hr : s.read file b (os k) = s.read file b (os' k) := by
          unfold FSrc.read
          rw [hsame k s.seekPos (s.physical b) p4 (by omega) p9]
        have e : ∀ x : ReadOS, sendLoop file x (fuel + 1) k s b acc =
            let r := s.read file b (x k)
            if r.src.hasError then .readError acc
            else match r.out with
              | none => .crash
              | some (size, bytes) => if size > 0 then sendLoop file x fuel (k + 1) r.src r.buf (acc ++ bytes) else .crash := by
          intro x
          exact if_neg hfin
        rw [e os, e os', ← hr]
        simp only
        rcases read_step (k := k) h hl hb (by simpa using hfin) (fun ha => hdir (hs ▸ ha)) with ⟨h1, h2⟩ | ⟨size, bytes, e1, e2, e3, e4, e5, e6, e7⟩
        · rw [if_pos h1, if_pos h1]
        · rw [if_neg (by rw [e3]; simp), if_neg (by rw [e3]; simp), e1]
          simp only
          rw [if_pos e2, if_pos e2]
          exact ih _ _ _ _ (e5.trans hs) e6
  exact key fuel 0 _ buf [] (by cases direct <;> rfl) (opened_inv file o n direct buf (fun _ => hd))

/-- An operating system that returns as much as it can, but at most `c` bytes. -/
def cappedOS (len c : Nat) : ReadOS := fun _ pos l => .got (min (min l (len - pos)) c).toNat

theorem cappedOS_legal (file : Bytes) (c : Nat) (hc : 0 < c) : (cappedOS file.length c).Legal file := by
  intro k pos len h1 h2
  simp only [cappedOS]
  refine ⟨?_, ?_, ?_⟩ <;> omega

/-- An operating system that returns as much as it can. -/
def fullOS (len : Nat) : ReadOS := fun _ pos l => .got (min l (len - pos)).toNat

theorem fullOS_legal (file : Bytes) : (fullOS file.length).Legal file := by
  intro k pos len h1 h2
  simp only [fullOS]
  refine ⟨?_, ?_, ?_⟩ <;> omega

theorem fullOS_full (file : Bytes) : (fullOS file.length).Full file := by
  intro k pos len
  simp only [fullOS]
  omega

/-- Reading 5 bytes from offset 2 of a file of 8, one byte at a time. -/
example : (cappedOS 8 1).Legal [1, 2, 3, 4, 5, 6, 7, 8] ∧ (cappedOS 8 1).NoErr ∧
    sendLoop [1, 2, 3, 4, 5, 6, 7, 8] (cappedOS 8 1) 6 0 (opened 2 5 false) [0, 0, 0, 0] [] = .sent [3, 4, 5, 6, 7] :=
  ⟨cappedOS_legal [1, 2, 3, 4, 5, 6, 7, 8] 1 (by decide), fun k p l h => by simp [cappedOS] at h, by decide +kernel⟩

/-- Three bytes of a block arrived before the connection broke; the file was closed. -/
example : sendLoop [1, 2, 3, 4, 5, 6, 7, 8] (cappedOS 8 1) 6 0
    ((FSrc.advance { size := 5, offset := 2, bytesRead := 4, aligned := false, isOpen := false } 3).open false true) [0, 0, 0, 0] [] =
    .sent [6, 7] := by decide +kernel

/-- Direct I/O from an offset that is not a multiple of the disk block size. -/
example : (fullOS 8).Legal [1, 2, 3, 4, 5, 6, 7, 8] ∧ (fullOS 8).NoErr ∧ (fullOS 8).Full [1, 2, 3, 4, 5, 6, 7, 8] ∧
    kDiskBlock ∣ (List.replicate 4096 (0 : UInt8)).length ∧
    sendLoop [1, 2, 3, 4, 5, 6, 7, 8] (fullOS 8) 6 0 (opened 2 5 true) (List.replicate 4096 0) [] = .sent [3, 4, 5, 6, 7] :=
  ⟨fullOS_legal [1, 2, 3, 4, 5, 6, 7, 8], fun k p l h => by simp [fullOS] at h, fullOS_full [1, 2, 3, 4, 5, 6, 7, 8],
    by rw [List.length_replicate]; decide, by decide +kernel⟩

/-- **C42 is violated with direct I/O when the file has become shorter.**  Ten bytes are
left of a block of twenty: instead of reporting an error the sender process dies, since
the read that finds the end of the file yields no new byte. -/
theorem C42_violated_direct_short_file :
    ∃ (file : Bytes) (os : ReadOS) (o n : Nat) (buf : Bytes), os.Legal file ∧ os.NoErr ∧ os.Full file ∧ 0 < buf.length ∧
      kDiskBlock ∣ buf.length ∧ file.length < o + n ∧ sendLoop file os (n + 1) 0 (opened o n true) buf [] = .crash := by
  refine ⟨List.replicate 10 7, fullOS 10, 0, 20, List.replicate 4096 0, ?_, ?_, ?_, by rw [List.length_replicate]; decide, by rw [List.length_replicate]; decide, by simp, by decide +kernel⟩
  · have := fullOS_legal (List.replicate 10 7); rwa [List.length_replicate] at this
  · intro k p l h; simp [fullOS] at h
  · have := fullOS_full (List.replicate 10 7); rwa [List.length_replicate] at this

/-- **C42 is violated with direct I/O and short reads** within a file that is long
enough. -/
theorem C42_violated_direct_short_read :
    ∃ (file : Bytes) (os : ReadOS) (o n : Nat) (buf : Bytes), os.Legal file ∧ os.NoErr ∧ 0 < buf.length ∧
      kDiskBlock ∣ buf.length ∧ o + n ≤ file.length ∧ sendLoop file os (n + 1) 0 (opened o n true) buf [] = .crash := by
  refine ⟨List.replicate 10 7, cappedOS 10 4, 5, 5, List.replicate 4096 0, ?_, ?_, by rw [List.length_replicate]; decide, by rw [List.length_replicate]; decide, by simp, by decide +kernel⟩
  · have := cappedOS_legal (List.replicate 10 7) 4 (by decide); rwa [List.length_replicate] at this
  · intro k p l h; simp [cappedOS] at h

end Wdt
