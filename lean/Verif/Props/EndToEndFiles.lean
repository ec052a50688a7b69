import Verif.Lemmas.EndToEndFiles
import Verif.Props.EndToEndCalm
import Verif.Props.EndToEnd
import Verif.Props.DestFile
/-
C72: when the sender reports success, the files at the receiver equal those at the sender.
-/
namespace Wdt

/-- What the threads of the receiver did to the destination of the file `name`, of which `src` are
the contents at the sender: a history of `FileCreator` and of `write(2)` calls (`DReach`) that are
the calls of attempts to receive parts of `src` (C38, C40), one attempt for each time that data of
this file arrived.  `st`: the status in the headers of its blocks; `f0`, `f`: contents of the
destination before and after. -/
def Received (S : ESys) (name src : Bytes) (o : DOpts) (st : AllocStatus) (q : Nat) (f0 f : Option Bytes) : Prop :=
  ∃ (fc : FC) (h : List FEv) (cs : List WCall) (as : List Attempt), DReach o st src.length q f0 fc h f cs ∧
    (as ≠ [] → ∃ t, .sized q t true ∈ h ∨ .opened q t true ∈ h) ∧ (∀ a ∈ as, a.Of src) ∧
    (∀ c ∈ cs, ∃ a ∈ as, c ∈ a.calls) ∧ (∀ a ∈ as, ∀ c ∈ a.calls, c ∈ cs) ∧
    ∀ l ∈ S.landed, (∃ b ∈ S.snd.created, b.name = name ∧ b.seqId = l.seqId) →
      ∃ a ∈ as, (a.offset : Int) = l.lo ∧ (a.offset : Int) + a.written = l.hi

/-- Everything of every block has arrived. -/
def AllArrived (S : ESys) : Prop := ∀ b ∈ S.snd.created,
  (∀ p, b.offset ≤ p → p < b.offset + b.size → ∃ l ∈ S.landed, l.seqId = b.seqId ∧ l.lo ≤ p ∧ p < l.hi) ∧
    ∃ l ∈ S.landed, l.seqId = b.seqId ∧ l.hi = b.offset + b.size

/-- Files that a transfer has found. -/
def foundFiles (es : List EEvent) : List FileRec := discoveredFiles (discOf es)

/-- What the receiver has said that it has. -/
def receiverLists (es : List EEvent) : List (List FileChunksInfo) := installedLists (discOf es)

theorem lookup_none {l : List FileChunksInfo} {name : Bytes} (h : ∀ i ∈ l, i.fileName ≠ name) :
    lookupPrev (firstOfName l) name = none := by
  unfold lookupPrev
  rw [List.find?_eq_none]
  intro i hi
  rcases insertPrev_sub l [] i hi with hh | hh
  · simpa using h i hh
  · cases hh

/-- Every block of the plan for a file is among the blocks created. -/
theorem planned_created {c : ECfg} {mb : Int} {del : Bool} {es : List EEvent} {S : ESys}
    (h : eRun c (ESys.init c mb del) es = some S) (h1 : (receiverLists es).length ≤ 1) {f : FileRec} (hf : f ∈ foundFiles es) :
    ∃ bl next fuel, fileBlocks mb (lookupPrev (firstOfName (receiverLists es).flatten) f.name) f.size next fuel = .ok (some bl) ∧
      ∀ b ∈ bl, ∃ x ∈ S.snd.created, x.name = f.name ∧ x.offset = b.offset ∧ x.size = b.size := by
  obtain ⟨bl, next, fuel, e1, e2⟩ := (blocks_of_transfer h h1).1.mem hf
  refine ⟨bl, next, fuel, e1, fun b hb => ?_⟩
  obtain ⟨x, hx, hx2⟩ := List.mem_map.1 (e2 b hb)
  simp only [Prod.mk.injEq] at hx2
  exact ⟨x, (List.mem_filter.1 hx).1, hx2.1, hx2.2.1, hx2.2.2⟩

/-- The bytes of a planned block are written. -/
theorem written_of {S : ESys} {name : Bytes} {as : List Attempt} (ha : AllArrived S)
    (hlink : ∀ l ∈ S.landed, (∃ b ∈ S.snd.created, b.name = name ∧ b.seqId = l.seqId) →
      ∃ a ∈ as, (a.offset : Int) = l.lo ∧ (a.offset : Int) + a.written = l.hi)
    {x : Source} (hx : x ∈ S.snd.created) (hn : x.name = name) :
    as ≠ [] ∧ ∀ j : Nat, x.offset ≤ j → (j : Int) < x.offset + x.size → ∃ a ∈ as, a.offset ≤ j ∧ j < a.offset + a.written := by
  obtain ⟨h1, l, hl, hl2, -⟩ := ha x hx
  constructor
  · obtain ⟨a, ha, -⟩ := hlink l hl ⟨x, hx, hn, hl2.symm⟩
    intro e; rw [e] at ha; cases ha
  · intro j j1 j2
    obtain ⟨l, hl, hl2, hl3, hl4⟩ := h1 j j1 j2
    obtain ⟨a, ha, e1, e2⟩ := hlink l hl ⟨x, hx, hn, hl2.symm⟩
    exact ⟨a, ha, by omega, by omega⟩

/-- A file that is sent whole. -/
theorem equal_new {c : ECfg} {mb : Int} {del : Bool} {es : List EEvent} {S : ESys}
    (h : eRun c (ESys.init c mb del) es = some S) (h1 : (receiverLists es).length ≤ 1) (ha : AllArrived S)
    {f : FileRec} (hf : f ∈ foundFiles es) (hnew : ∀ i ∈ (receiverLists es).flatten, i.fileName ≠ f.name)
    {src : Bytes} (hsz : f.size = src.length) {o : DOpts} {q : Nat} {f0 fin : Option Bytes}
    (hr : Received S f.name src o NOT_EXISTS q f0 fin) : fin = some src := by
  obtain ⟨fc, hist, cs, as, d1, d2, d3, d4, d5, d6⟩ := hr
  obtain ⟨bl, next, fuel, e1, e2⟩ := planned_created h h1 hf
  rw [lookup_none hnew, hsz] at e1
  have hw : ∀ b ∈ bl, as ≠ [] ∧ ∀ j : Nat, b.offset ≤ j → (j : Int) < b.offset + b.size →
      ∃ a ∈ as, a.offset ≤ j ∧ j < a.offset + a.written := by
    intro b hb
    obtain ⟨x, hx, hn, ho, hs⟩ := e2 b hb
    have := written_of ha d6 hx hn
    rw [ho, hs] at this
    exact this
  have hne : bl ≠ [] ∧ ∀ j : Nat, j < src.length → ∃ b ∈ bl, b.offset ≤ j ∧ (j : Int) < b.offset + b.size := by
    by_cases h0 : src.length = 0
    · refine ⟨?_, fun j hj => by omega⟩
      have hp := C15_empty_file mb next
      rw [h0] at e1
      unfold fileBlocks at e1 hp
      have hpl : planFile none 0 next = .ok (some ⟨[⟨0, 0⟩], next, 0, NOT_EXISTS, next + 1, 0⟩) := by
        simp [planFile, mkInterval]
      rw [show ((0 : Nat) : Int) = 0 from rfl, hpl] at e1
      rw [hpl] at hp
      simp only [Except.ok.injEq] at e1 hp
      have := tileAll_fuel_unique e1 hp
      rw [this]; simp
    · obtain ⟨fuel', l, e1', e2', -⟩ := C15_fresh_file mb none src.length next (by omega) (by simp)
      have hpl : planFile none src.length next = .ok (some ⟨[⟨0, src.length⟩], next, 0, NOT_EXISTS, next + 1, 0⟩) := by
        simp [planFile, mkInterval]
      have hl : l = bl := by
        unfold fileBlocks at e1 e1'
        rw [hpl] at e1 e1'
        simp only [Except.ok.injEq] at e1 e1'
        exact tileAll_fuel_unique e1' e1
      subst hl
      have hall : ∀ j : Nat, j < src.length → ∃ b ∈ l, b.offset ≤ j ∧ (j : Int) < b.offset + b.size :=
        fun j hj => (e2' j).2 ⟨by omega, by omega⟩
      refine ⟨?_, hall⟩
      obtain ⟨b, hb, -⟩ := hall 0 (by omega)
      intro e; rw [e] at hb; cases hb
  obtain ⟨b, hb⟩ := List.exists_mem_of_ne_nil bl hne.1
  refine C45_equal o NOT_EXISTS q f0 fin src fc hist cs d1 (d2 (hw b hb).1) (fun hx => absurd hx (by decide)) as d3 d4 d5 fun j hj => .inl ?_
  obtain ⟨b, hb, j1, j2⟩ := hne.2 j hj
  exact (hw b hb).2 j j1 j2

/-- Success means that everything has arrived, with the restrictions of C70. -/
theorem all_arrived {c : ECfg} {mb : Int} {del : Bool} {es : List EEvent} {S : ESys} {i : SenderInput}
    (h : eRun c (ESys.init c mb del) es = some S) (hne : i.threads ≠ [])
    (hth : ∀ t s, i.threads[t]? = some s → s.errorCode = eOK → (S.port t).sph = .ended true)
    (hfs : ∀ x ∈ S.snd.q.failed, ∃ f ∈ i.failedSources, f.errorCode ≠ eOK)
    (hr : S.refused = false) (hs : S.silent = false) (hok : (senderReport i).errorCode = eOK) : AllArrived S :=
  fun b hb => C70_report_means_arrived_partial c mb del es S i h hne hth hfs hr hs hok b hb

/-- The first entry with a name. -/
theorem lookup_some {l : List FileChunksInfo} {info : FileChunksInfo} (hi : info ∈ l)
    (huniq : ∀ i ∈ l, i.fileName = info.fileName → i = info) : lookupPrev (firstOfName l) info.fileName = some info := by
  have keep : ∀ (l m : List FileChunksInfo) (n : Bytes), (lookupPrev m n).isSome → (lookupPrev (l.foldl insertPrev m) n).isSome := by
    intro l
    induction l with
    | nil => intro m n h; exact h
    | cons a l ih =>
      intro m n h
      refine ih _ n ?_
      unfold insertPrev
      split
      · exact h
      · unfold lookupPrev at h ⊢
        rw [List.find?_append, Option.isSome_or, h]; rfl
  have found : ∀ (l m : List FileChunksInfo), info ∈ l → (lookupPrev (l.foldl insertPrev m) info.fileName).isSome := by
    intro l
    induction l with
    | nil => intro m h; cases h
    | cons a l ih =>
      intro m h
      rcases List.mem_cons.1 h with rfl | h
      · refine keep l _ _ ?_
        unfold insertPrev
        split
        · assumption
        · unfold lookupPrev
          rw [List.find?_append, Option.isSome_or]
          simp
      · exact ih _ h
  have hs := found l [] hi
  cases hf : lookupPrev (firstOfName l) info.fileName with
  | none => unfold firstOfName at hf; rw [hf] at hs; cases hs
  | some j =>
    have hm := List.mem_of_find?_eq_some hf
    have hn := List.find?_some hf
    rcases insertPrev_sub l [] j hm with hh | hh
    · rw [huniq j hh (by simpa using hn)]
    · cases hh

/-- A file of which the receiver has a part. -/
theorem equal_resumed {c : ECfg} {mb : Int} {del : Bool} {es : List EEvent} {S : ESys}
    (h : eRun c (ESys.init c mb del) es = some S) (h1 : (receiverLists es).length ≤ 1) (ha : AllArrived S)
    {f : FileRec} (hf : f ∈ foundFiles es) {info : FileChunksInfo} (hinfo : info ∈ (receiverLists es).flatten)
    (hname : info.fileName = f.name) (huniq : ∀ i ∈ (receiverLists es).flatten, i.fileName = info.fileName → i = info)
    {l sorted : List Interval} (hv : Valid l) (h0 : ∀ i ∈ l, 0 ≤ i.start) (hsort : IsSortOf sorted l)
    (hmerged : info.chunks = mergeSorted sorted) (hin : ∀ i ∈ l, i.stop ≤ info.fileSize)
    {src b0 : Bytes} (hsz : f.size = src.length) (hle : info.fileSize ≤ src.length) (hb0 : b0.length ≤ src.length)
    (hkept : ∀ j : Nat, j < src.length → Covered l j → b0[j]? = src[j]?)
    (hmiss : ∃ j : Nat, j < src.length ∧ ¬ Covered l j) {o : DOpts} {q : Nat} {fin : Option Bytes}
    (hr : Received S f.name src o (if info.fileSize < src.length then EXISTS_TOO_SMALL else EXISTS_CORRECT_SIZE) q (some b0) fin) :
    fin = some src := by
  obtain ⟨fc, hist, cs, as, d1, d2, d3, d4, d5, d6⟩ := hr
  obtain ⟨bl, next, fuel, e1, e2⟩ := planned_created h h1 hf
  rw [← hname, lookup_some hinfo huniq, hsz] at e1
  obtain ⟨j, hj, hjc⟩ := hmiss
  have hw : ∀ b ∈ bl, as ≠ [] ∧ ∀ j : Nat, b.offset ≤ j → (j : Int) < b.offset + b.size →
      ∃ a ∈ as, a.offset ≤ j ∧ j < a.offset + a.written := by
    intro b hb
    obtain ⟨x, hx, hn, ho, hs⟩ := e2 b hb
    have := written_of ha d6 hx hn
    rw [ho, hs] at this
    exact this
  obtain ⟨fuel', bl', e1', e2', -⟩ := C15_resumed_file mb info l sorted hv h0 hsort hmerged hin src.length next hle (by omega)
  have hplan : ∃ p, planFile (some info) src.length next = .ok (some p) := by
    unfold fileBlocks at e1'
    split at e1'
    · cases e1'
    · cases e1'
      obtain ⟨b, hb, -⟩ := (e2' j).2 ⟨by omega, by omega, hjc⟩
      cases hb
    · rename_i p hp; exact ⟨p, hp⟩
  obtain ⟨p, hp⟩ := hplan
  have hst : p.status = if info.fileSize < src.length then EXISTS_TOO_SMALL else EXISTS_CORRECT_SIZE := by
    obtain ⟨-, -, s3, s1⟩ := C15_status (some info) src.length next p hp
    split
    · rename_i hlt; exact s3.2 ⟨info, rfl, hlt⟩
    · exact s1.2 ⟨info, rfl, by omega⟩
  have hl : bl' = bl := by
    unfold fileBlocks at e1 e1'
    rw [hp] at e1 e1'
    simp only [Except.ok.injEq] at e1 e1'
    exact tileAll_fuel_unique e1' e1
  subst hl
  obtain ⟨b, hb, -⟩ := (e2' j).2 ⟨by omega, by omega, hjc⟩
  refine C45_resumed o info l sorted hv h0 hsort hmerged hin q b0 fin src fc hist cs mb next (by omega) hle hb0 hkept p hp
    bl' fuel e1 (by rw [hst]; exact d1) (d2 (hw b hb).1) as d3 d4 d5 fun b hb => (hw b hb).2

/-- What a sender knows when its transfer has ended and it reports success.  `i` is what the
report is made of, see `C70_report_means_arrived_partial`. -/
structure Succeeded (S : ESys) (i : SenderInput) : Prop where
  threads : i.threads ≠ []
  ended : ∀ t s, i.threads[t]? = some s → s.errorCode = eOK → (S.port t).sph = .ended true
  failed : ∀ x ∈ S.snd.q.failed, ∃ f ∈ i.failedSources, f.errorCode ≠ eOK
  ok : (senderReport i).errorCode = eOK

/-- The status in the headers of a file that the receiver has not listed is `NOT_EXISTS`; of a
file that it has listed with a smaller or the same size, what `Received` says below.  The size in
the header is that of the file. -/
theorem C72_headers (c : ECfg) (mb : Int) (del : Bool) (es : List EEvent) (S : ESys)
    (h : eRun c (ESys.init c mb del) es = some S) (h1 : (receiverLists es).length ≤ 1) (f : FileRec) (hf : f ∈ foundFiles es)
    (hone : ∀ g ∈ foundFiles es, g.name = f.name → g = f) (b : Source) (hb : b ∈ S.snd.created) (hn : b.name = f.name) :
    b.fileSize = f.size ∧ ((∀ i ∈ (receiverLists es).flatten, i.fileName ≠ f.name) → b.status = NOT_EXISTS) ∧
    ∀ info ∈ (receiverLists es).flatten, info.fileName = f.name →
      (∀ i ∈ (receiverLists es).flatten, i.fileName = info.fileName → i = info) → info.fileSize ≤ f.size →
      b.status = if info.fileSize < f.size then EXISTS_TOO_SMALL else EXISTS_CORRECT_SIZE := by
  obtain ⟨⟨g, hg, g1, g2⟩, -, next, p, hp, hs⟩ := (blocks_of_transfer h h1).2 b hb f hf hn
  have := hone g hg (g1.trans hn)
  subst this
  obtain ⟨s0, -, s3, s1⟩ := C15_status _ _ _ _ hp
  rw [hn] at hp s0 s3 s1
  refine ⟨g2.symm, fun hnew => ?_, fun info hi hin hu hle => ?_⟩
  · rw [hs]; exact s0.2 (lookup_none hnew)
  · have hlk := lookup_some hi hu
    rw [hin] at hlk
    rw [hs, ← g2] at *
    split
    · rename_i hlt; exact s3.2 ⟨info, hlk, hlt⟩
    · exact s1.2 ⟨info, hlk, by omega⟩

/-- C72 for a file that the receiver has not listed: its destination equals the source, whatever
was there before.  Missing: the restrictions of C70 (`hr`, `hs`). -/
theorem C72_new_file_partial (c : ECfg) (mb : Int) (del : Bool) (es : List EEvent) (S : ESys) (i : SenderInput)
    (h : eRun c (ESys.init c mb del) es = some S) (hi : Succeeded S i) (hr : S.refused = false) (hs : S.silent = false)
    (h1 : (receiverLists es).length ≤ 1) (f : FileRec) (hf : f ∈ foundFiles es)
    (hnew : ∀ i ∈ (receiverLists es).flatten, i.fileName ≠ f.name) (src : Bytes) (hsz : f.size = src.length)
    (o : DOpts) (q : Nat) (f0 fin : Option Bytes) (hrec : Received S f.name src o NOT_EXISTS q f0 fin) : fin = some src :=
  equal_new h h1 (all_arrived h hi.threads hi.ended hi.failed hr hs hi.ok) hf hnew hsz hrec

/-- The same without restrictions when no receiver thread gives up. -/
theorem C72_new_file_unless_receiver_thread_fails (c : ECfg) (mb : Int) (del : Bool) (es : List EEvent) (S : ESys)
    (i : SenderInput) (h : eRun c (ESys.init c mb del) es = some S) (hi : Succeeded S i)
    (hfail : ∀ u, EEvent.v (.failed u) ∉ es) (hend : ∀ u, EEvent.v (.silentEnd u) ∉ es)
    (h1 : (receiverLists es).length ≤ 1) (f : FileRec) (hf : f ∈ foundFiles es)
    (hnew : ∀ i ∈ (receiverLists es).flatten, i.fileName ≠ f.name) (src : Bytes) (hsz : f.size = src.length)
    (o : DOpts) (q : Nat) (f0 fin : Option Bytes) (hrec : Received S f.name src o NOT_EXISTS q f0 fin) : fin = some src := by
  have hc := Calm.run (PInv.init c mb del) ⟨rfl, rfl, rfl⟩ hfail hend h
  exact C72_new_file_partial c mb del es S i h hi hc.2.2 hc.2.1 h1 f hf hnew src hsz o q f0 fin hrec

/-- C72 for a file of which an earlier session received the ranges `l`, which hold the bytes of
the source (C65, C66), and something is missing: the sender sends the rest only, and then the
destination equals the source.  Same restrictions. -/
theorem C72_resumed_file_partial (c : ECfg) (mb : Int) (del : Bool) (es : List EEvent) (S : ESys) (i : SenderInput)
    (h : eRun c (ESys.init c mb del) es = some S) (hi : Succeeded S i) (hr : S.refused = false) (hs : S.silent = false)
    (h1 : (receiverLists es).length ≤ 1) (f : FileRec) (hf : f ∈ foundFiles es) (info : FileChunksInfo)
    (hinfo : info ∈ (receiverLists es).flatten) (hname : info.fileName = f.name)
    (huniq : ∀ i ∈ (receiverLists es).flatten, i.fileName = info.fileName → i = info)
    (l sorted : List Interval) (hv : Valid l) (h0 : ∀ i ∈ l, 0 ≤ i.start) (hsort : IsSortOf sorted l)
    (hmerged : info.chunks = mergeSorted sorted) (hin : ∀ i ∈ l, i.stop ≤ info.fileSize)
    (src b0 : Bytes) (hsz : f.size = src.length) (hle : info.fileSize ≤ src.length) (hb0 : b0.length ≤ src.length)
    (hkept : ∀ j : Nat, j < src.length → Covered l j → b0[j]? = src[j]?)
    (hmiss : ∃ j : Nat, j < src.length ∧ ¬ Covered l j) (o : DOpts) (q : Nat) (fin : Option Bytes)
    (hrec : Received S f.name src o (if info.fileSize < src.length then EXISTS_TOO_SMALL else EXISTS_CORRECT_SIZE) q
      (some b0) fin) : fin = some src :=
  equal_resumed h h1 (all_arrived h hi.threads hi.ended hi.failed hr hs hi.ok) hf hinfo hname huniq hv h0 hsort hmerged hin
    hsz hle hb0 hkept hmiss hrec

/-- C72 for a file of which the receiver has everything: no data of it is sent (the headers of its
blocks are the only thing that makes the receiver open a file), so it stays as it is. -/
theorem C72_complete_file (c : ECfg) (mb : Int) (del : Bool) (es : List EEvent) (S : ESys)
    (h : eRun c (ESys.init c mb del) es = some S) (h1 : (receiverLists es).length ≤ 1) (f : FileRec) (hf : f ∈ foundFiles es)
    (hone : ∀ g ∈ foundFiles es, g.name = f.name → g = f) (info : FileChunksInfo)
    (hinfo : info ∈ (receiverLists es).flatten) (hname : info.fileName = f.name)
    (huniq : ∀ i ∈ (receiverLists es).flatten, i.fileName = info.fileName → i = info)
    (l sorted : List Interval) (hv : Valid l) (h0 : ∀ i ∈ l, 0 ≤ i.start) (hsort : IsSortOf sorted l)
    (hmerged : info.chunks = mergeSorted sorted) (hin : ∀ i ∈ l, i.stop ≤ info.fileSize) (hle : info.fileSize ≤ f.size)
    (hall : ∀ p, 0 ≤ p → p < f.size → Covered l p) : ∀ b ∈ S.snd.created, b.name ≠ f.name := by
  intro b hb hn
  obtain ⟨⟨g, hg, g1, g2⟩, -, next, p, hp, -⟩ := (blocks_of_transfer h h1).2 b hb f hf hn
  have := hone g hg (g1.trans hn)
  subst this
  have hlk := lookup_some hinfo huniq
  have hrem := (C14_nothing_remaining_iff l sorted hv h0 hsort g.size (fun i hi => by have := hin i hi; omega)).2 hall
  unfold receiverLists at hlk
  rw [hn, ← hname, hlk, ← g2] at hp
  unfold planFile at hp
  simp only [if_neg (show ¬ info.fileSize > g.size by omega), hmerged, hrem] at hp
  cases hp

/-- Contents of the file in the examples. -/
def exBytes : Bytes := [1, 2, 3, 4, 5, 6, 7, 8, 9, 10]

/-- Attempt to receive `d` bytes at `o`, of which `got` arrive. -/
def exAttempt (o d : Nat) (got : Bytes) : Attempt :=
  ⟨o, d, { offset := o, dataSize := d, fd := some o, nextSync := o }, -1, if got = [] then [] else [(got, [.wrote got.length], true)]⟩

/-- Thread 1 creates the file and receives 4 bytes, then 6. -/
theorem exReachNew : ∃ s h, DReach ⟨false, false, false⟩ NOT_EXISTS 10 7 none s h (some exBytes)
    [(0, [1, 2, 3, 4]), (4, [5, 6, 7, 8, 9, 10])] ∧ .sized 7 1 true ∈ h := by
  have r1 := DReach.step (o := ⟨false, false, false⟩) (status := NOT_EXISTS) (size := 10) (q := 7) (f0 := none)
    (.enter 1 7 false) .init rfl (by rintro t c h; cases h; decide) rfl
  have r2 := DReach.step (f' := some []) (.go 1 true) r1 rfl (by rintro t c h; cases h)
    (by simp only [Effects, FEv.Effect, if_true]; intro _; exact ⟨by decide +kernel, by simp⟩)
  have w1 := DReach.write 1 (0, [1, 2, 3, 4]) r2 (Or.inl (by simp))
  have w2 := DReach.write 1 (4, [5, 6, 7, 8, 9, 10]) w1 (Or.inl (by simp))
  exact ⟨_, _, w2, by simp⟩

/-- Thread 1 creates the file and receives 4 bytes. -/
theorem exReachCut : ∃ s h, DReach ⟨false, false, false⟩ NOT_EXISTS 10 7 none s h (some [1, 2, 3, 4])
    [(0, [1, 2, 3, 4])] ∧ .sized 7 1 true ∈ h := by
  have r1 := DReach.step (o := ⟨false, false, false⟩) (status := NOT_EXISTS) (size := 10) (q := 7) (f0 := none)
    (.enter 1 7 false) .init rfl (by rintro t c h; cases h; decide) rfl
  have r2 := DReach.step (f' := some []) (.go 1 true) r1 rfl (by rintro t c h; cases h)
    (by simp only [Effects, FEv.Effect, if_true]; intro _; exact ⟨by decide +kernel, by simp⟩)
  have w1 := DReach.write 1 (0, [1, 2, 3, 4]) r2 (Or.inl (by simp))
  exact ⟨_, _, w1, by simp⟩

/-- A file of 10 bytes is there, with its first 4 bytes right; thread 0 opens it and receives 6. -/
theorem exReachRest : ∃ s h, DReach ⟨false, false, true⟩ EXISTS_CORRECT_SIZE 10 7 (some [1, 2, 3, 4, 0, 0, 0, 0, 0, 0]) s h
    (some exBytes) [(4, [5, 6, 7, 8, 9, 10])] ∧ ∃ t, .sized 7 t true ∈ h ∨ .opened 7 t true ∈ h := by
  have r1 := DReach.step (o := ⟨false, false, true⟩) (status := EXISTS_CORRECT_SIZE) (size := 10) (q := 7)
    (f0 := some [1, 2, 3, 4, 0, 0, 0, 0, 0, 0]) (.enter 0 7 true) .init rfl (by rintro t c h; cases h; decide) rfl
  have r2 := DReach.step (f' := some [1, 2, 3, 4, 0, 0, 0, 0, 0, 0]) (.go 0 true) r1 rfl (by rintro t c h; cases h)
    ⟨rfl, by simp⟩
  have w1 := DReach.write 0 (4, [5, 6, 7, 8, 9, 10]) r2 (by simp)
  exact ⟨_, _, w1, 0, by simp⟩

theorem exSucceeded {S : ESys} (n : Nat) (hn : n ≠ 0) (h2 : S.snd.q.failed = [])
    (h3 : (senderReport (exInput n S)).errorCode = eOK) : Succeeded S (exInput n S) := by
  refine ⟨by simp [exInput, hn], ?_, by simp [h2], h3⟩
  intro t x hx hx2
  simp only [exInput, List.getElem?_map, Option.map_eq_some_iff] at hx
  obtain ⟨u, hu, rfl⟩ := hx
  obtain ⟨hu, hut⟩ := List.getElem?_eq_some_iff.1 hu
  rw [List.getElem_range] at hut
  subst hut
  by_contra hne
  simp only [if_neg hne, TStats.errorCode] at hx2
  revert hx2; decide

/-- The execution `exCalm` (C70) of two files meets the hypotheses of
`C72_new_file_unless_receiver_thread_fails`, and so of `C72_new_file_partial`. -/
example : ∃ S, eRun { n := 2 } (ESys.init { n := 2 } 0 false) exCalm = some S ∧ Succeeded S (exInput 2 S) ∧
    receiverLists exCalm = [] ∧ (⟨[97], 10⟩ : FileRec) ∈ foundFiles exCalm ∧
    Received S [97] exBytes ⟨false, false, false⟩ NOT_EXISTS 7 none (some exBytes) := by
  have h : (match eRun { n := 2 } (ESys.init { n := 2 } 0 false) exCalm with
      | some S => decide (S.snd.q.failed = [] ∧
          (senderReport (exInput 2 S)).errorCode = eOK ∧ S.landed = [⟨1, 0, 4⟩, ⟨2, 0, 7⟩, ⟨1, 4, 10⟩] ∧
          ∀ b ∈ S.snd.created, b.seqId = 2 → b.name = [98])
      | none => false) = true := by decide +kernel
  split at h
  · rename_i S hS
    obtain ⟨h2, h3, h4, h5⟩ := of_decide_eq_true h
    obtain ⟨s, hh, hr, ho⟩ := exReachNew
    refine ⟨S, hS, exSucceeded 2 (by decide) h2 h3, by decide +kernel, by decide +kernel, s, hh, _,
      [exAttempt 0 10 [1, 2, 3, 4], exAttempt 4 6 [5, 6, 7, 8, 9, 10]], hr, fun _ => ⟨1, .inl ho⟩, ?_, ?_, ?_, ?_⟩
    · unfold Attempt.Of; decide +kernel
    · decide +kernel
    · decide +kernel
    · intro l hl hb
      rw [h4] at hl
      simp only [List.mem_cons, List.not_mem_nil, or_false] at hl
      rcases hl with rfl | rfl | rfl
      · exact ⟨_, List.mem_cons_self, by decide +kernel⟩
      · obtain ⟨b, hb, e1, e2⟩ := hb
        have := h5 b hb e2
        rw [this] at e1; cases e1
      · exact ⟨_, List.mem_cons_of_mem _ List.mem_cons_self, by decide +kernel⟩
  · cases h

/-- One port; the receiver has the first 4 bytes of the file. -/
def exRest : List EEvent :=
  [.s (.setPrev [⟨5, [97], 10, [⟨0, 4⟩]⟩]), .s (.discover ⟨[97], 10⟩), .s .finishDiscovery, .s (.connect 0),
   .v (.accept1 0), .s (.pop 0 { name := [97], seqId := 5, prevSeqId := 0, fileSize := 10, status := 1, offset := 4, size := 6 }),
   .s (.openOk 0), .s (.write 0 6), .v (.recv 0), .s (.sent 0 (.ok 5))] ++ exWrapUp

/-- `exRest` meets the hypotheses of `C72_resumed_file_partial`. -/
example : ∃ S, eRun { n := 1 } (ESys.init { n := 1 } 0 false) exRest = some S ∧ Succeeded S (exInput 1 S) ∧
    S.refused = false ∧ S.silent = false ∧ receiverLists exRest = [[⟨5, [97], 10, [⟨0, 4⟩]⟩]] ∧
    (⟨[97], 10⟩ : FileRec) ∈ foundFiles exRest ∧ [⟨0, 4⟩] = mergeSorted [⟨0, 4⟩] ∧ ¬ Covered [⟨0, 4⟩] 7 ∧
    Received S [97] exBytes ⟨false, false, true⟩ EXISTS_CORRECT_SIZE 7 (some [1, 2, 3, 4, 0, 0, 0, 0, 0, 0]) (some exBytes) := by
  have h : (match eRun { n := 1 } (ESys.init { n := 1 } 0 false) exRest with
      | some S => decide (S.snd.q.failed = [] ∧
          (senderReport (exInput 1 S)).errorCode = eOK ∧ S.landed = [⟨5, 4, 10⟩] ∧ S.refused = false ∧ S.silent = false)
      | none => false) = true := by decide +kernel
  split at h
  · rename_i S hS
    obtain ⟨h2, h3, h4, h5, h6⟩ := of_decide_eq_true h
    obtain ⟨s, hh, hr, ho⟩ := exReachRest
    refine ⟨S, hS, exSucceeded 1 (by decide) h2 h3, h5, h6, by decide +kernel, by decide +kernel, by decide +kernel,
      by simp [Covered, Interval.Has], s, hh, _, [exAttempt 4 6 [5, 6, 7, 8, 9, 10]], hr, fun _ => ho, ?_, ?_, ?_, ?_⟩
    · unfold Attempt.Of; decide +kernel
    · decide +kernel
    · decide +kernel
    · intro l hl hb
      rw [h4] at hl
      simp only [List.mem_cons, List.not_mem_nil, or_false] at hl
      subst hl
      exact ⟨_, List.mem_cons_self, by decide +kernel⟩
  · cases h

/-- `C72_complete_file` is not about nothing: the receiver has all of one file and nothing of the
other. -/
example : (match eRun { n := 1 } (ESys.init { n := 1 } 0 false)
      [.s (.setPrev [⟨5, [97], 10, [⟨0, 10⟩]⟩]), .s (.discover ⟨[97], 10⟩), .s (.discover ⟨[98], 3⟩), .s .finishDiscovery] with
      | some S => decide (S.snd.created.map (·.name) = [[98]])
      | none => false) = true := by decide +kernel

/-- The restriction is needed: in `exRefused` the sender reports success, nothing was there before,
and the destination is a proper prefix of the source. -/
theorem C72_violated : ∃ S, eRun { n := 2 } (ESys.init { n := 2 } 0 false) exRefused = some S ∧ Succeeded S (exInput 2 S) ∧
    S.silent = false ∧ receiverLists exRefused = [] ∧ (⟨[97], 10⟩ : FileRec) ∈ foundFiles exRefused ∧
    Received S [97] exBytes ⟨false, false, false⟩ NOT_EXISTS 7 none (some [1, 2, 3, 4]) := by
  have h : (match eRun { n := 2 } (ESys.init { n := 2 } 0 false) exRefused with
      | some S => decide (S.snd.q.failed = [] ∧
          (senderReport (exInput 2 S)).errorCode = eOK ∧ S.landed = [⟨1, 0, 0⟩, ⟨1, 0, 4⟩] ∧ S.silent = false)
      | none => false) = true := by decide +kernel
  split at h
  · rename_i S hS
    obtain ⟨h2, h3, h4, h5⟩ := of_decide_eq_true h
    obtain ⟨s, hh, hr, ho⟩ := exReachCut
    refine ⟨S, hS, exSucceeded 2 (by decide) h2 h3, h5, by decide +kernel, by decide +kernel, s, hh, _,
      [exAttempt 0 10 [], exAttempt 0 10 [1, 2, 3, 4]], hr, fun _ => ⟨1, .inl ho⟩, ?_, ?_, ?_, ?_⟩
    · unfold Attempt.Of; decide +kernel
    · decide +kernel
    · decide +kernel
    · intro l hl hb
      rw [h4] at hl
      simp only [List.mem_cons, List.not_mem_nil, or_false] at hl
      rcases hl with rfl | rfl
      · exact ⟨_, List.mem_cons_self, by decide +kernel⟩
      · exact ⟨_, List.mem_cons_of_mem _ List.mem_cons_self, by decide +kernel⟩
  · cases h

end Wdt
