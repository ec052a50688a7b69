import Verif.Model.FileWriter
/-
C43: what writing a block does to a file.
-/
namespace Wdt

/-- What a file holds after a write: the data in its range, zeros in a gap that it left
before it, the old contents elsewhere. -/
theorem fileWrite_get (f : Bytes) (p : Nat) (d : Bytes) (hd : d ≠ []) (i : Nat) :
    (fileWrite f p d)[i]? = if p ≤ i ∧ i < p + d.length then d[i - p]?
      else if f.length ≤ i ∧ i < p then some 0 else f[i]? := by
  unfold fileWrite
  rw [if_neg hd]
  have hl : ((f ++ List.replicate (p - f.length) 0).take p).length = p := by simp; omega
  rw [List.append_assoc]
  by_cases h1 : i < p
  · rw [List.getElem?_append_left (by omega), if_neg (by omega), List.getElem?_take_of_lt h1]
    by_cases h2 : f.length ≤ i
    · rw [List.getElem?_append_right h2, if_pos ⟨h2, h1⟩, List.getElem?_replicate, if_pos (by omega)]
    · rw [List.getElem?_append_left (by omega), if_neg (by omega)]
  · rw [List.getElem?_append_right (by omega), hl]
    by_cases h2 : i < p + d.length
    · rw [List.getElem?_append_left (by omega), if_pos ⟨by omega, h2⟩]
    · rw [List.getElem?_append_right (by omega), if_neg (by omega), if_neg (by omega), List.getElem?_drop]
      congr 1; omega

theorem fileWrite_append (f : Bytes) (p : Nat) (a b : Bytes) :
    fileWrite (fileWrite f p a) (p + a.length) b = fileWrite f p (a ++ b) := by
  by_cases ha : a = []
  · subst ha; simp [fileWrite]
  by_cases hb : b = []
  · subst hb; simp [fileWrite]
  apply List.ext_getElem?
  intro i
  have hab : a ++ b ≠ [] := by simp [ha]
  have hapos : 0 < a.length := List.length_pos_iff.2 ha
  have hlen : p + a.length ≤ (fileWrite f p a).length := by
    unfold fileWrite; rw [if_neg ha]; simp; omega
  rw [fileWrite_get _ _ b hb, fileWrite_get _ _ a ha, fileWrite_get _ _ _ hab]
  simp only [List.length_append]
  by_cases h1 : p ≤ i
  · by_cases h2 : i < p + a.length
    · rw [if_neg (by omega), if_neg (by omega), if_pos ⟨h1, h2⟩, if_pos ⟨h1, by omega⟩, List.getElem?_append_left (by omega)]
    · by_cases h3 : i < p + a.length + b.length
      · rw [if_pos ⟨by omega, h3⟩, if_pos ⟨h1, by omega⟩, List.getElem?_append_right (by omega)]
        congr 1; omega
      · rw [if_neg (by omega), if_neg (by omega), if_neg (by omega), if_neg (by omega), if_neg (by omega)]
  · rw [if_neg (by omega), if_neg (by omega), if_neg (by omega)]
    exact (if_neg (by omega)).symm

/-- A run of calls that write consecutive pieces of some data from a position on. -/
def CTiles : Nat → List WCall → Bytes → Prop
  | _, [], d => d = []
  | p, c :: cs, d => c.1 = p ∧ ∃ d', d = c.2 ++ d' ∧ CTiles (p + c.2.length) cs d'

theorem CTiles.append {p : Nat} {cs ds : List WCall} {a b : Bytes} (h1 : CTiles p cs a) (h2 : CTiles (p + a.length) ds b) :
    CTiles p (cs ++ ds) (a ++ b) := by
  induction cs generalizing p a with
  | nil => cases h1; simpa using h2
  | cons c cs ih =>
    obtain ⟨e, d', rfl, h⟩ := h1
    refine ⟨e, d' ++ b, by simp, ih h ?_⟩
    rw [List.length_append] at h2
    rwa [Nat.add_assoc]

theorem CTiles.apply {p : Nat} {cs : List WCall} {d : Bytes} (h : CTiles p cs d) (f : Bytes) :
    applyCalls f cs = fileWrite f p d := by
  induction cs generalizing p d f with
  | nil => cases h; simp [applyCalls, fileWrite]
  | cons c cs ih =>
    obtain ⟨rfl, d', rfl, h⟩ := h
    have := ih h (fileWrite f c.1 c.2)
    rw [fileWrite_append] at this
    exact this

theorem fwriteLoop_spec (answers : List WAns) (pos : Nat) (data : Bytes) :
    ∃ pre, CTiles pos (fwriteLoop answers pos data).1 pre ∧ pre <+: data ∧ (fwriteLoop answers pos data).2.1 = pos + pre.length ∧
      ((fwriteLoop answers pos data).2.2 = .ok ↔ pre = data) := by
  induction answers generalizing pos data with
  | nil => cases data with
    | nil => exact ⟨[], rfl, List.prefix_rfl, rfl, by simp [fwriteLoop]⟩
    | cons d ds => exact ⟨[], rfl, List.nil_prefix, rfl, by simp [fwriteLoop]⟩
  | cons a as ih =>
    cases data with
    | nil => exact ⟨[], rfl, List.prefix_rfl, rfl, by simp [fwriteLoop]⟩
    | cons d ds =>
      cases a with
      | eintr => exact ih pos (d :: ds)
      | err => exact ⟨[], rfl, List.nil_prefix, rfl, by simp [fwriteLoop]⟩
      | wrote n =>
        obtain ⟨pre, h1, ⟨suf, h2⟩, h3, h4⟩ := ih (pos + ((d :: ds).take n).length) ((d :: ds).drop n)
        refine ⟨(d :: ds).take n ++ pre, ⟨rfl, pre, rfl, h1⟩, ⟨suf, ?_⟩, ?_, ?_⟩
        · rw [List.append_assoc, h2, List.take_append_drop]
        · show (fwriteLoop as _ _).2.1 = _
          rw [h3, List.length_append]; omega
        · show (fwriteLoop as _ _).2.2 = _ ↔ _
          rw [h4]
          constructor
          · intro e; rw [e, List.take_append_drop]
          · intro e
            exact List.append_cancel_left (e.trans (List.take_append_drop n (d :: ds)).symm)

/-- Fields that syncing keeps. -/
theorem syncRange_keep (w : FWriter) (i : Int) (n : Nat) (f ok : Bool) :
    (w.syncRange i n f ok).1.fd = w.fd ∧ (w.syncRange i n f ok).1.total = w.total ∧
    (w.syncRange i n f ok).1.dataSize = w.dataSize ∧ (w.syncRange i n f ok).1.offset = w.offset := by
  unfold FWriter.syncRange
  simp only
  (repeat' split) <;> simp

/-- One call of `write`. -/
theorem write_spec (w : FWriter) (i : Int) (data : Bytes) (answers : List WAns) (ok : Bool) (pos : Nat) (hfd : w.fd = some pos) :
    ∃ pre, CTiles pos (w.write i data answers ok).calls pre ∧ pre <+: data ∧
      (w.write i data answers ok).w.total ≤ w.total + pre.length ∧ (w.write i data answers ok).w.dataSize = w.dataSize ∧
      ((w.write i data answers ok).res = .ok → pre = data ∧ (w.write i data answers ok).w.total = w.total + data.length ∧
        (w.write i data answers ok).w.fd = some (pos + data.length)) := by
  obtain ⟨pre, h1, h2, h3, h4⟩ := fwriteLoop_spec answers pos data
  refine ⟨pre, ?_⟩
  unfold FWriter.write
  rw [hfd]
  simp only
  generalize hr : fwriteLoop answers pos data = r at *
  obtain ⟨calls, p, e⟩ := r
  simp only at h1 h3 h4 ⊢
  subst h3
  obtain ⟨k1, k2, k3, k4⟩ := syncRange_keep { w with fd := some (pos + pre.length) } i data.length (w.total + data.length == w.dataSize) ok
  cases e with
  | ok =>
    obtain rfl := h4.1 rfl
    simp only
    generalize FWriter.syncRange _ _ _ _ _ = s at *
    simp only at k1 k2 k3
    split
    · simp only
      exact ⟨h1, h2, by omega, k3, fun _ => ⟨trivial, by omega, k1⟩⟩
    · simp only
      exact ⟨h1, h2, by omega, k3, fun h => by cases h⟩
  | writeError => exact ⟨h1, h2, by simp only; omega, rfl, fun h => by cases h⟩
  | running => exact ⟨h1, h2, by simp only; omega, rfl, fun h => by cases h⟩

/-- Several calls of `write`. -/
theorem writes_spec (i : Int) (bs : List (Bytes × List WAns × Bool)) (w : FWriter) (pos : Nat) (hfd : w.fd = some pos) :
    ∃ pre, CTiles pos (w.writes i bs).calls pre ∧ pre <+: (bs.map (·.1)).flatten ∧
      (w.writes i bs).w.total ≤ w.total + pre.length ∧ (w.writes i bs).w.dataSize = w.dataSize ∧
      ((w.writes i bs).res = .ok → pre = (bs.map (·.1)).flatten ∧ (w.writes i bs).w.total = w.total + pre.length) := by
  induction bs generalizing w pos with
  | nil => exact ⟨[], rfl, List.prefix_rfl, Nat.le_refl _, rfl, fun _ => ⟨rfl, rfl⟩⟩
  | cons b bs ih =>
    obtain ⟨data, answers, ok⟩ := b
    obtain ⟨pre, h1, h2, h3, h3', h4⟩ := write_spec w i data answers ok pos hfd
    unfold FWriter.writes
    simp only
    generalize hr : w.write i data answers ok = r at *
    simp only [List.map_cons, List.flatten_cons]
    cases he : r.res with
    | ok =>
      obtain ⟨rfl, e1, e2⟩ := h4 he
      obtain ⟨pre2, g1, g2, g3, g3', g4⟩ := ih r.w _ e2
      simp only
      refine ⟨pre ++ pre2, h1.append g1, ?_, ?_, ?_, ?_⟩
      · exact (List.prefix_append_right_inj pre).2 g2
      · rw [List.length_append]; omega
      · rw [g3', h3']
      · intro h
        obtain ⟨f1, f2⟩ := g4 h
        exact ⟨by rw [f1], by rw [List.length_append]; omega⟩
    | writeError => exact ⟨pre, h1, h2.trans (List.prefix_append _ _), h3, h3', fun h => by cases h⟩
    | running => exact ⟨pre, h1, h2.trans (List.prefix_append _ _), h3, h3', fun h => by cases h⟩

/-- A writer that could be opened stands at the offset of its block. -/
theorem open_ok {offset dataSize : Nat} {opened seekOk : Bool} {w : FWriter}
    (hopen : (FWriter.make offset dataSize).open opened seekOk = (w, .ok)) :
    w.fd = some offset ∧ w.total = 0 ∧ w.sinceSync = 0 ∧ w.nextSync = offset ∧ w.offset = offset ∧ w.dataSize = dataSize := by
  unfold FWriter.open FWriter.make at hopen
  cases opened with
  | false => cases hopen
  | true =>
    by_cases h : offset > 0
    · cases seekOk with
      | false => simp [h] at hopen
      | true =>
        simp only [Bool.not_true, Bool.false_eq_true, if_false, h, if_true] at hopen
        cases hopen
        exact ⟨rfl, rfl, rfl, rfl, rfl, rfl⟩
    · simp only [Bool.not_true, Bool.false_eq_true, if_false, h] at hopen
      cases hopen
      have : offset = 0 := by omega
      subst this
      exact ⟨rfl, rfl, rfl, rfl, rfl, rfl⟩

/-- **C43.**  A block is opened and written with any number of calls, all of which succeed,
however the operating system interrupts or shortens the writes.  Then the file holds the
written bytes at the offset of the block, and every other byte is what it was (a gap before
the block, in a file that was shorter, reads as zeros). -/
theorem C43_written (file : Bytes) (offset dataSize : Nat) (w : FWriter)
    (opened seekOk : Bool) (hopen : (FWriter.make offset dataSize).open opened seekOk = (w, .ok)) (interval : Int) (bs : List (Bytes × List WAns × Bool))
    (hok : (w.writes interval bs).res = .ok) (i : Nat) :
    let data := (bs.map (·.1)).flatten
    let file' := applyCalls file (w.writes interval bs).calls
    (offset ≤ i → i < offset + data.length → file'[i]? = data[i - offset]?) ∧
    ((i < offset ∨ offset + data.length ≤ i) → i < file.length → file'[i]? = file[i]?) ∧
    file'.length = (if data = [] then file.length else max file.length (offset + data.length)) ∧
    (w.writes interval bs).w.total = data.length := by
  have hw := open_ok hopen
  obtain ⟨pre, h1, -, -, -, h4⟩ := writes_spec interval bs w offset hw.1
  obtain ⟨rfl, h5⟩ := h4 hok
  simp only
  rw [h1.apply file]
  generalize (bs.map (·.1)).flatten = data at *
  refine ⟨?_, ?_, ?_, by omega⟩
  · intro a b
    rw [fileWrite_get _ _ _ (by intro e; subst e; simp at b; omega), if_pos ⟨a, b⟩]
  · intro a b
    by_cases hd : data = []
    · rw [hd]; simp [fileWrite]
    · rw [fileWrite_get _ _ _ hd, if_neg (by omega), if_neg (by omega)]
  · by_cases hd : data = []
    · rw [if_pos hd, hd]; simp [fileWrite]
    · rw [if_neg hd]
      unfold fileWrite
      rw [if_neg hd]
      simp
      omega

/-- **C43 (failed writes).**  If a write fails, what reached the file is a prefix of the
data at the offset of the block, and the number of bytes that is reported as written, and
that may be entered in a checkpoint, is at most the length of that prefix. -/
theorem C43_failed (file : Bytes) (offset dataSize : Nat) (w : FWriter)
    (opened seekOk : Bool) (hopen : (FWriter.make offset dataSize).open opened seekOk = (w, .ok)) (interval : Int) (bs : List (Bytes × List WAns × Bool)) :
    ∃ pre, pre <+: (bs.map (·.1)).flatten ∧ applyCalls file (w.writes interval bs).calls = fileWrite file offset pre ∧
      (w.writes interval bs).w.total ≤ pre.length := by
  have hw := open_ok hopen
  obtain ⟨pre, h1, h2, h3, -, -⟩ := writes_spec interval bs w offset hw.1
  have := hw.2.1
  exact ⟨pre, h2, h1.apply file, by omega⟩

/-- A call writes the byte at a position. -/
def WCall.Covers (c : WCall) (j : Nat) : Prop := c.1 ≤ j ∧ j < c.1 + c.2.length

theorem fileWrite_keep (f : Bytes) (c : WCall) (j : Nat) (v : UInt8) (h : ¬ c.Covers j) (hv : f[j]? = some v) :
    (fileWrite f c.1 c.2)[j]? = some v := by
  by_cases hd : c.2 = []
  · unfold fileWrite; rw [if_pos hd]; exact hv
  · have hj : j < f.length := by
      rcases Nat.lt_or_ge j f.length with h | h
      · exact h
      · rw [List.getElem?_eq_none h] at hv; cases hv
    rw [fileWrite_get _ _ _ hd, if_neg (show ¬ (c.1 ≤ j ∧ j < c.1 + c.2.length) from h), if_neg (by omega)]
    exact hv

/-- The value of a byte after many calls that agree on it. -/
theorem apply_value (cs : List WCall) (f : Bytes) (j : Nat) (v : UInt8)
    (h : ∀ c ∈ cs, c.Covers j → c.2[j - c.1]? = some v) (hc : f[j]? = some v ∨ ∃ c ∈ cs, c.Covers j) :
    (applyCalls f cs)[j]? = some v := by
  induction cs generalizing f with
  | nil =>
    rcases hc with hc | ⟨c, hc, -⟩
    · exact hc
    · cases hc
  | cons c cs ih =>
    show (applyCalls (fileWrite f c.1 c.2) cs)[j]? = some v
    apply ih
    · intro x hx; exact h x (by simp [hx])
    · by_cases hcov : c.Covers j
      · left
        have hd : c.2 ≠ [] := by
          intro e; unfold WCall.Covers at hcov; rw [e] at hcov; simp at hcov; omega
        rw [fileWrite_get _ _ _ hd, if_pos (show c.1 ≤ j ∧ j < c.1 + c.2.length from hcov)]
        exact h c (by simp) hcov
      · rcases hc with hc | ⟨x, hx, hcx⟩
        · left; exact fileWrite_keep f c j v hcov hc
        · right
          rcases List.mem_cons.1 hx with rfl | hx
          · exact absurd hcx hcov
          · exact ⟨x, hx, hcx⟩

theorem CTiles.covers {p : Nat} {cs : List WCall} {d : Bytes} (h : CTiles p cs d) (j : Nat) (h1 : p ≤ j) (h2 : j < p + d.length) :
    ∃ c ∈ cs, c.Covers j := by
  induction cs generalizing p d with
  | nil => cases h; simp at h2; omega
  | cons c cs ih =>
    obtain ⟨rfl, d', rfl, h⟩ := h
    by_cases hc : j < c.1 + c.2.length
    · exact ⟨c, by simp, h1, hc⟩
    · rw [List.length_append] at h2
      obtain ⟨x, hx, hcx⟩ := ih h (by omega) (by omega)
      exact ⟨x, by simp [hx], hcx⟩

theorem CTiles.value {p : Nat} {cs : List WCall} {d : Bytes} (h : CTiles p cs d) (c : WCall) (hc : c ∈ cs) (j : Nat) (hj : c.Covers j) :
    p ≤ j ∧ j < p + d.length ∧ c.2[j - c.1]? = d[j - p]? := by
  induction cs generalizing p d with
  | nil => cases hc
  | cons c0 cs ih =>
    obtain ⟨rfl, d', rfl, h⟩ := h
    unfold WCall.Covers at hj
    rcases List.mem_cons.1 hc with rfl | hc
    · refine ⟨hj.1, by rw [List.length_append]; omega, ?_⟩
      rw [List.getElem?_append_left (by omega)]
    · obtain ⟨a, b, e⟩ := ih h hc
      refine ⟨by omega, by rw [List.length_append]; omega, ?_⟩
      rw [e, List.getElem?_append_right (by omega)]
      congr 1; omega

/-- **C43 (several threads).**  While one thread writes its block, the system calls of
other threads that write other parts of the same file may come in between in any order:
the block still ends up with its bytes.  `calls`: all calls, each with its thread. -/
theorem C43_concurrent (file : Bytes) (offset dataSize : Nat) (w : FWriter)
    (opened seekOk : Bool) (hopen : (FWriter.make offset dataSize).open opened seekOk = (w, .ok)) (interval : Int) (bs : List (Bytes × List WAns × Bool))
    (hok : (w.writes interval bs).res = .ok) (calls : List (Nat × WCall)) (me : Nat)
    (hme : (calls.filter (fun c => c.1 == me)).map (·.2) = (w.writes interval bs).calls)
    (hothers : ∀ c ∈ calls, c.1 ≠ me → ∀ j, offset ≤ j → j < offset + ((bs.map (·.1)).flatten).length → ¬ c.2.Covers j)
    (i : Nat) (hi : i < ((bs.map (·.1)).flatten).length) :
    (applyCalls file (calls.map (·.2)))[offset + i]? = ((bs.map (·.1)).flatten)[i]? := by
  have hw := open_ok hopen
  obtain ⟨pre, h1, -, -, -, h4⟩ := writes_spec interval bs w offset hw.1
  obtain ⟨rfl, h5⟩ := h4 hok
  rw [← hme] at h1
  generalize (bs.map (·.1)).flatten = data at *
  obtain ⟨v, hv⟩ : ∃ v, data[i]? = some v := ⟨data[i], List.getElem?_eq_getElem hi⟩
  rw [hv]
  apply apply_value
  · intro c hc hcov
    obtain ⟨x, hx, rfl⟩ := List.mem_map.1 hc
    by_cases hm : x.1 = me
    · have hin : x.2 ∈ (calls.filter (fun c => c.1 == me)).map (·.2) :=
        List.mem_map.2 ⟨x, List.mem_filter.2 ⟨hx, by simp [hm]⟩, rfl⟩
      obtain ⟨a, b, e⟩ := h1.value x.2 hin _ hcov
      rw [e, Nat.add_sub_cancel_left, hv]
    · exact absurd hcov (hothers x hx hm _ (by omega) (by omega))
  · right
    obtain ⟨c, hc, hcov⟩ := h1.covers (offset + i) (by omega) (by omega)
    obtain ⟨x, hx, rfl⟩ := List.mem_map.1 hc
    exact ⟨x.2, List.mem_map.2 ⟨x, (List.mem_filter.1 hx).1, rfl⟩, hcov⟩

/-- What is known about syncing. -/
def SyInv (w : FWriter) : Prop :=
  w.fd.isSome ∧ w.nextSync + w.sinceSync = w.offset + w.total ∧ (w.total = w.dataSize → w.sinceSync = 0)

theorem syncRange_sync (w : FWriter) (i : Int) (hi : 0 ≤ i) (n : Nat) (f ok : Bool) (h : (w.syncRange i n f ok).2.1 = true) :
    (w.syncRange i n f ok).1.nextSync + (w.syncRange i n f ok).1.sinceSync = w.nextSync + w.sinceSync + n ∧
    (f = true → (w.syncRange i n f ok).1.sinceSync = 0) := by
  unfold FWriter.syncRange at h ⊢
  rw [if_neg (by omega)] at h ⊢
  simp only at h ⊢
  by_cases h0 : w.sinceSync + n = 0
  · rw [if_pos h0]
    exact ⟨by simp only; omega, fun _ => h0⟩
  · rw [if_neg h0] at h ⊢
    by_cases hf : (f || decide (((w.sinceSync + n : Nat) : Int) > i * 1024 * 1024)) = true
    · rw [if_pos hf] at h ⊢
      cases ok with
      | true => exact ⟨by simp only [if_true]; omega, fun _ => rfl⟩
      | false => simp at h
    · rw [if_neg hf]
      refine ⟨by simp only; omega, fun e => ?_⟩
      subst e; simp at hf

theorem write_sync (w : FWriter) (i : Int) (hi : 0 ≤ i) (data : Bytes) (answers : List WAns) (ok : Bool) (h : SyInv w)
    (hok : (w.write i data answers ok).res = .ok) :
    SyInv (w.write i data answers ok).w ∧ (w.write i data answers ok).w.offset = w.offset := by
  obtain ⟨h1, h2, h3⟩ := h
  unfold FWriter.write at hok ⊢
  obtain ⟨pos, hp⟩ := Option.isSome_iff_exists.1 h1
  rw [hp] at hok ⊢
  simp only at hok ⊢
  generalize fwriteLoop answers pos data = r at *
  obtain ⟨calls, p, e⟩ := r
  simp only at hok ⊢
  cases e with
  | ok =>
    simp only at hok ⊢
    have hk := syncRange_keep { w with fd := some p } i data.length (w.total + data.length == w.dataSize) ok
    have hs := syncRange_sync { w with fd := some p } i hi data.length (w.total + data.length == w.dataSize) ok
    generalize FWriter.syncRange _ _ _ _ _ = q at *
    obtain ⟨k1, k2, k3, k4⟩ := hk
    simp only at k1 k2 k3 k4
    split at hok
    · rename_i hq
      obtain ⟨s1, s2⟩ := hs hq
      rw [if_pos hq]
      simp only at s1 s2 ⊢
      refine ⟨⟨by simp only [k1]; rfl, by simp only; omega, ?_⟩, k4⟩
      intro e
      simp only at e
      exact s2 (by simp only [beq_iff_eq]; omega)
    · cases hok
  | writeError => simp at hok
  | running => simp at hok

/-- **C43 (syncing).**  With syncing to disk turned on, when a block has been written
successfully the whole of it has been handed to `sync_file_range`. -/
theorem C43_synced (offset dataSize : Nat) (w : FWriter)
    (opened seekOk : Bool) (hopen : (FWriter.make offset dataSize).open opened seekOk = (w, .ok)) (interval : Int) (hi : 0 ≤ interval)
    (bs : List (Bytes × List WAns × Bool)) (hok : (w.writes interval bs).res = .ok)
    (hall : ((bs.map (·.1)).flatten).length = dataSize) :
    (w.writes interval bs).w.nextSync = offset + dataSize := by
  have hw : w.fd = some offset ∧ w.total = 0 ∧ w.sinceSync = 0 ∧ w.nextSync = offset ∧ w.offset = offset ∧ w.dataSize = dataSize := open_ok hopen
  obtain ⟨e1, e2, e3, e4, e5, e6⟩ := hw
  have key : ∀ (bs : List (Bytes × List WAns × Bool)) (w : FWriter), SyInv w → (w.writes interval bs).res = .ok →
      SyInv (w.writes interval bs).w ∧ (w.writes interval bs).w.offset = w.offset := by
    intro bs
    induction bs with
    | nil => intro w h _; exact ⟨h, rfl⟩
    | cons b bs ih =>
      obtain ⟨data, answers, ok⟩ := b
      intro w h hok
      have hs := write_sync w interval hi data answers ok h
      unfold FWriter.writes at hok ⊢
      simp only at hok ⊢
      generalize w.write interval data answers ok = r at *
      cases he : r.res with
      | ok =>
        rw [he] at hok
        simp only at hok ⊢
        obtain ⟨s1, s2⟩ := hs he
        obtain ⟨a, b⟩ := ih r.w s1 hok
        exact ⟨a, b.trans s2⟩
      | writeError => rw [he] at hok; simp at hok
      | running => rw [he] at hok; simp at hok
  obtain ⟨k1, k2⟩ := key bs w ⟨by rw [e1]; rfl, by omega, fun _ => e3⟩ hok
  obtain ⟨pre, h1, -, -, hd, h4⟩ := writes_spec interval bs w offset e1
  obtain ⟨rfl, h5⟩ := h4 hok
  obtain ⟨-, q2, q3⟩ := k1
  have := q3 (by omega)
  omega

/-- Six bytes at offset 3 of a file of four, in two calls, with an interruption and short
writes. -/
example : ∃ w, (FWriter.make 3 6).open true true = (w, .ok) ∧
    (w.writes 0 [([1, 2, 3, 4], [.wrote 1, .eintr, .wrote 0, .wrote 3], true), ([5, 6], [.wrote 5], true)]).res = .ok ∧
    applyCalls [9, 9, 9, 9] (w.writes 0 [([1, 2, 3, 4], [.wrote 1, .eintr, .wrote 0, .wrote 3], true), ([5, 6], [.wrote 5], true)]).calls
      = [9, 9, 9, 1, 2, 3, 4, 5, 6] ∧
    (w.writes 0 [([1, 2, 3, 4], [.wrote 1, .eintr, .wrote 0, .wrote 3], true), ([5, 6], [.wrote 5], true)]).w.nextSync = 9 :=
  ⟨_, rfl, by decide +kernel, by decide +kernel, by decide +kernel⟩

/-- Two threads. -/
example : ∃ (w : FWriter) (calls : List (Nat × WCall)), (FWriter.make 1 2).open true true = (w, .ok) ∧
    (w.writes 0 [([7, 8], [.wrote 1, .wrote 1], true)]).res = .ok ∧
    (calls.filter (fun c => c.1 == 0)).map (·.2) = (w.writes 0 [([7, 8], [.wrote 1, .wrote 1], true)]).calls ∧
    (∀ c ∈ calls, c.1 ≠ 0 → ∀ j, 1 ≤ j → j < 1 + 2 → ¬ c.2.Covers j) ∧
    applyCalls [] (calls.map (·.2)) = [0, 7, 8, 5] := by
  refine ⟨_, [(0, 1, [7]), (1, 3, [5]), (0, 2, [8])], rfl, by decide +kernel, by decide +kernel, ?_, by decide +kernel⟩
  intro c hc
  simp only [List.mem_cons, List.not_mem_nil, or_false] at hc
  rcases hc with rfl | rfl | rfl <;> simp [WCall.Covers]
  omega

end Wdt
