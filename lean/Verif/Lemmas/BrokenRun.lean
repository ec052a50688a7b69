import Verif.Lemmas.BrokenConn
import Verif.Lemmas.History
import Verif.Model.BrokenConn
/-
Lemmas for C99: what a broken connection does to the receiver's checkpoint and to the
sender's queue.
-/
namespace Wdt

/-- The write of a whole source. -/
def wholeWrite (c : BCfg) (x : Source) : BlockDetails × Bytes := (x.details.carried c.ver, x.data c.src)

/-- The effect of a broken connection on writes and checkpoint: it was `cp` and is `cp'`, the writes are `ws`;
`done` are the sources that count as received.  `whole`: only whole sources count. -/
structure CutEffect (c : BCfg) (whole : Bool) (cp cp' : RcvCp) (srcs : List Source) (ws : List (BlockDetails × Bytes))
    (done pend : List Source) : Prop where
  split : srcs = done ++ pend
  count : cp'.numBlocks = cp.numBlocks + done.length
  rest : (ws = done.map (wholeWrite c) ∧ cp'.last = (if done = [] then cp.last else none)) ∨
    (∃ x tl m, whole = false ∧ pend = x :: tl ∧ (m < (x.data c.src).length ∧ (x.fileSize < 2 ^ 56 → 0 < m)) ∧
      ws = done.map (wholeWrite c) ++ [(x.details.carried c.ver, (x.data c.src).take m)] ∧
      cp'.last = some (x.seqId, x.offset, (m : Int))) ∨
    (∃ more, whole = true ∧ ws = done.map (wholeWrite c) ++ more ∧
      (∀ e ∈ more, ∃ x ∈ pend, ∃ m, e = (x.details.carried c.ver, (x.data c.src).take m)) ∧ cp'.last = none)

theorem cut_effect (c : BCfg) (footer : Bool) : ∀ (items : List BItem) (obs : List RObs) (cp : RcvCp),
    ItemsCut c.ver footer (items.map (BItem.sent c.src)) obs →
    ∃ done pend, CutEffect c footer cp (obs.foldl (RcvCp.step footer) cp) (items.filterMap BItem.source)
      (obs.filterMap RObs.write) done pend := by
  intro items
  induction items with
  | nil =>
    intro obs cp h
    cases h with
    | stop => exact ⟨[], [], rfl, rfl, .inl ⟨rfl, rfl⟩⟩
  | cons i items ih =>
    intro obs cp h
    cases i with
    | size t =>
      simp only [List.map_cons, BItem.sent] at h
      cases h with
      | stop => exact ⟨[], _, rfl, rfl, .inl ⟨rfl, rfl⟩⟩
      | next _ h =>
        obtain ⟨d, p, h1, h2, h3⟩ := ih _ cp h
        exact ⟨d, p, h1, h2, h3⟩
    | file st x =>
      simp only [List.map_cons, BItem.sent] at h
      cases h with
      | stop => exact ⟨[], _, rfl, rfl, .inl ⟨rfl, rfl⟩⟩
      | @part _ _ _ m _ hm hm0 =>
        cases footer with
        | false =>
          refine ⟨[], _, rfl, rfl, .inr (.inl ⟨x, _, m, rfl, rfl, ⟨hm, hm0⟩, rfl, ?_⟩)⟩
          show some (x.seqId, x.offset, (((x.data c.src).take m).length : Int)) = _
          rw [List.length_take, Nat.min_eq_left (by omega)]
        | true =>
          refine ⟨[], x :: items.filterMap BItem.source, rfl, rfl, .inr (.inr
            ⟨[(x.details.carried c.ver, (x.data c.src).take m)], rfl, rfl, ?_, rfl⟩)⟩
          intro e he
          rw [List.mem_singleton] at he
          exact ⟨x, List.mem_cons_self, m, he⟩
      | unchecked _ hf =>
        subst hf
        refine ⟨[], x :: items.filterMap BItem.source, rfl, rfl, .inr (.inr ⟨[wholeWrite c x], rfl, rfl, ?_, rfl⟩)⟩
        intro e he
        rw [List.mem_singleton] at he
        exact ⟨x, List.mem_cons_self, (x.data c.src).length, by rw [he, List.take_length]; rfl⟩
      | next _ h =>
        obtain ⟨d, p, h1, h2, h3⟩ := ih _ { numBlocks := cp.numBlocks + 1, last := none } h
        have hcp : (SItem.obs c.ver footer (.block st x.details (x.data c.src))).foldl (RcvCp.step footer) cp =
            { numBlocks := cp.numBlocks + 1, last := none } := by
          cases footer <;> rfl
        have hwr : (SItem.obs c.ver footer (.block st x.details (x.data c.src))).filterMap RObs.write = [wholeWrite c x] := by
          cases footer <;> rfl
        refine ⟨x :: d, p, ?_, ?_, ?_⟩
        · show x :: _ = _
          rw [h1]; rfl
        · rw [List.foldl_append, hcp, h2, List.length_cons]
          show cp.numBlocks + 1 + d.length = _
          omega
        · rw [List.foldl_append, hcp, List.filterMap_append, hwr]
          rcases h3 with ⟨a, b⟩ | ⟨y, tl, m, a, b, g, e, f⟩ | ⟨more, a, b, e, f⟩
          · refine .inl ⟨by rw [a]; rfl, ?_⟩
            rw [b]; simp
          · exact .inr (.inl ⟨y, tl, m, a, b, g, by rw [e]; rfl, f⟩)
          · exact .inr (.inr ⟨more, a, by rw [b]; rfl, e, f⟩)

theorem full_effect (c : BCfg) (footer : Bool) : ∀ (items : List BItem) (cp : RcvCp),
    (((items.map (BItem.sent c.src)).flatMap (SItem.obs c.ver footer)).foldl (RcvCp.step footer) cp).numBlocks =
      cp.numBlocks + (items.filterMap BItem.source).length ∧
    ((items.map (BItem.sent c.src)).flatMap (SItem.obs c.ver footer)).filterMap RObs.write =
      (items.filterMap BItem.source).map (wholeWrite c) := by
  intro items
  induction items with
  | nil => intro cp; exact ⟨rfl, rfl⟩
  | cons i items ih =>
    intro cp
    cases i with
    | size t =>
      obtain ⟨h1, h2⟩ := ih cp
      exact ⟨h1, h2⟩
    | file st x =>
      obtain ⟨h1, h2⟩ := ih { numBlocks := cp.numBlocks + 1, last := none }
      have hcp : (SItem.obs c.ver footer (.block st x.details (x.data c.src))).foldl (RcvCp.step footer) cp =
          { numBlocks := cp.numBlocks + 1, last := none } := by
        cases footer <;> rfl
      have hwr : (SItem.obs c.ver footer (.block st x.details (x.data c.src))).filterMap RObs.write = [wholeWrite c x] := by
        cases footer <;> rfl
      have hs : (BItem.file st x :: items).filterMap BItem.source = x :: items.filterMap BItem.source := rfl
      rw [List.map_cons, List.flatMap_cons, List.foldl_append, List.filterMap_append, hs]
      show _ ∧ _ = wholeWrite c x :: _
      rw [show BItem.sent c.src (.file st x) = .block st x.details (x.data c.src) from rfl, hcp, hwr, h1, h2, List.length_cons]
      refine ⟨?_, rfl⟩
      show cp.numBlocks + 1 + _ = _
      omega

/-- `b` is `a` without its first `r` bytes. -/
structure Without (a b : Source) (r : Int) : Prop where
  name : b.name = a.name
  seqId : b.seqId = a.seqId
  prev : b.prevSeqId = a.prevSeqId
  fileSize : b.fileSize = a.fileSize
  status : b.status = a.status
  offset : b.offset = a.offset + r
  size : b.size = a.size - r

theorem markFailed_without (s : Source) (ts : SrcStats) (cp : Option Checkpoint) :
    Without s (markFailed s ts cp).1 (cpBytes s cp) := by
  unfold markFailed advanceOffset
  simp only
  split <;> exact ⟨rfl, rfl, rfl, rfl, rfl, rfl, rfl⟩

theorem failBack_split (cp : Checkpoint) (x : Source) : ∀ (M : List Source) (ts : SrcStats),
    ∃ l₀ x', (failBack cp (M ++ [x]) ts).1 = l₀ ++ [(x, x')] ∧ l₀.map Prod.fst = M ∧
      (∀ p ∈ l₀, Without p.1 p.2 0) ∧ Without x x' (cpBytes x (some cp)) := by
  intro M
  induction M with
  | nil =>
    intro ts
    exact ⟨[], _, rfl, rfl, by simp, markFailed_without x ts (some cp)⟩
  | cons y M ih =>
    intro ts
    obtain ⟨l₀, x', h1, h2, h3, h4⟩ := ih (markFailed y ts none).2
    refine ⟨(y, (markFailed y ts none).1) :: l₀, x', ?_, by rw [List.map_cons, h2], ?_, h4⟩
    · have : ∃ z Z, M ++ [x] = z :: Z := by
        cases M with
        | nil => exact ⟨_, _, rfl⟩
        | cons z Z => exact ⟨_, _, rfl⟩
      obtain ⟨z, Z, hz⟩ := this
      rw [List.cons_append, hz]
      rw [hz] at h1
      show (y, (markFailed y ts none).1) :: (failBack cp (z :: Z) (markFailed y ts none).2).1 = _
      rw [h1]; rfl
    · intro p hp
      rcases List.mem_cons.1 hp with rfl | hp
      · exact markFailed_without y ts none
      · exact h3 p hp

theorem addSources_hist (srcs : List Source) : ∀ h : Hist, h.globalCp = false →
    (srcs.foldl (fun h s => (addSource h s).1) h).history = h.history ++ srcs ∧
    (srcs.foldl (fun h s => (addSource h s).1) h).globalCp = false ∧
    (srcs.foldl (fun h s => (addSource h s).1) h).lastCp = h.lastCp := by
  induction srcs with
  | nil => intro h hg; exact ⟨by simp, hg, rfl⟩
  | cons s srcs ih =>
    intro h hg
    have e : (addSource h s).1 = { h with history := h.history ++ [s] } := by
      unfold addSource
      rw [if_neg (by simp [hg])]
    obtain ⟨a, b, d⟩ := ih { h with history := h.history ++ [s] } hg
    rw [List.foldl_cons, e]
    exact ⟨by rw [a]; simp, b, d⟩

/-! ### The invariant -/

/-- The sender can send this source: fields in range, a name short enough for `C34_delivery_partial`,
deletions carry no data, the file is as long as announced and smaller than 64 PiB. -/
structure Sendable (c : BCfg) (x : Source) : Prop where
  wf : x.details.WF
  name : x.name.length ≤ 204
  del : x.status = TO_BE_DELETED → x.fileSize = 0 ∧ x.size = 0
  len : x.offset + x.size ≤ (c.src x.seqId).length
  fit : x.offset + x.size ≤ int64Max
  small : x.fileSize < 2 ^ 56

theorem Sendable.data_length {c : BCfg} {x : Source} (h : Sendable c x) : ((x.data c.src).length : Int) = x.size := by
  obtain ⟨_, ⟨h1, _⟩, ⟨h2, _⟩, _⟩ := h.wf
  have h1' : 0 ≤ x.size := h1
  have h2' : 0 ≤ x.offset := h2
  have := h.len
  unfold Source.data
  rw [List.length_take, List.length_drop]
  omega

/-- Different files, or different parts of one file. -/
def ApartSrc (a b : Source) : Prop :=
  a.seqId ≠ b.seqId ∨ 0 < a.size ∧ 0 < b.size ∧ (a.offset + a.size ≤ b.offset ∨ b.offset + b.size ≤ a.offset)

theorem ApartSrc.symm {a b : Source} (h : ApartSrc a b) : ApartSrc b a := by
  rcases h with h | ⟨h1, h2, h3⟩
  · exact .inl (Ne.symm h)
  · exact .inr ⟨h2, h1, h3.symm⟩

/-- Position `p` of file `q` has been written. -/
def WrittenAt (w : List (BlockDetails × Bytes)) (q p : Int) : Prop :=
  ∃ e ∈ w, e.1.seqId = q ∧ e.1.offset ≤ p ∧ p < e.1.offset + e.2.length

theorem WrittenAt.mono {w w' : List (BlockDetails × Bytes)} {q p : Int} (h : WrittenAt w q p) : WrittenAt (w ++ w') q p := by
  obtain ⟨e, he, h1⟩ := h
  exact ⟨e, List.mem_append_left _ he, h1⟩

/-- The write is a beginning of what remains to be sent of a source of `Q`, with its contents. -/
def GoodWrite (c : BCfg) (Q : List Source) (e : BlockDetails × Bytes) : Prop :=
  ∃ x ∈ Q, e.1.fileName = x.name ∧ e.1.seqId = x.seqId ∧ e.1.fileSize = x.fileSize ∧ x.offset ≤ e.1.offset ∧
    e.1.offset + e.1.dataSize = x.offset + x.size ∧ (e.2.length : Int) ≤ e.1.dataSize ∧
    e.2 = ((c.src x.seqId).drop e.1.offset.toNat).take e.2.length

/-- `y` is what remains of a source of `Q`. -/
def RestOf (Q : List Source) (y : Source) : Prop :=
  ∃ x ∈ Q, ∃ r, 0 ≤ r ∧ Without x y r

structure BrkInv (c : BCfg) (Q : List Source) (S : BSys) : Prop where
  noGlobal : S.hist.globalCp = false
  hlen : S.hist.history.length = S.cp.numBlocks
  lastCp : S.hist.lastCp = none ∨ S.hist.lastCp = some S.cp.msg
  good : ∀ e ∈ S.written, GoodWrite c Q e
  lastNone : c.st.enableChecksum = true → S.cp.last = none
  last : ∀ q o w, S.cp.last = some (q, o, w) → 0 < w ∧ ∀ y ∈ S.queue, y.seqId = q → y.offset ≠ o
  send : ∀ y ∈ S.queue, Sendable c y
  apart : S.queue.Pairwise ApartSrc
  origin : ∀ y ∈ S.queue, RestOf Q y
  cover : ∀ x ∈ Q, ∀ p, x.offset ≤ p → p < x.offset + x.size →
    WrittenAt S.written x.seqId p ∨ ∃ y ∈ S.queue, y.seqId = x.seqId ∧ y.offset ≤ p ∧ p < y.offset + y.size
  ended : ∀ x ∈ Q, (∃ e ∈ S.written, e.1.fileName = x.name ∧ e.1.seqId = x.seqId ∧
      e.1.offset + e.2.length = x.offset + x.size) ∨
    ∃ y ∈ S.queue, y.name = x.name ∧ y.seqId = x.seqId ∧ y.offset + y.size = x.offset + x.size

theorem BrkInv.init {c : BCfg} {Q : List Source} (hs : ∀ y ∈ Q, Sendable c y) (ha : Q.Pairwise ApartSrc) :
    BrkInv c Q { queue := Q } where
  noGlobal := rfl
  hlen := rfl
  lastCp := .inl rfl
  good := by simp
  lastNone := fun _ => rfl
  last := by simp
  send := hs
  apart := ha
  origin := fun y hy => ⟨y, hy, 0, Int.le_refl 0, rfl, rfl, rfl, rfl, rfl, by omega, by omega⟩
  cover := fun x hx p h1 h2 => .inr ⟨x, hx, rfl, h1, h2⟩
  ended := fun x hx => .inr ⟨x, hx, rfl, rfl, rfl⟩

theorem Sendable.without {c : BCfg} {a b : Source} {r : Int} (h : Sendable c a) (w : Without a b r) (h0 : 0 ≤ r) (h1 : r ≤ a.size) :
    Sendable c b := by
  obtain ⟨w1, w2, w3, w4, w5, w6, w7⟩ := w
  obtain ⟨⟨a1, a2, a3, a4, a5, a6, a7⟩, hn, hd, hl, hf, hsm⟩ := h
  simp only [Source.details] at a1 a2 a3 a4 a5 a6 a7
  unfold NN at a2 a3
  refine ⟨⟨?_, ?_, ?_, ?_, ?_, ?_, ?_⟩, ?_, ?_, ?_, ?_, by rw [w4]; exact hsm⟩
  · show NN b.seqId; rw [w2]; exact a1
  · show NN b.size; unfold NN; omega
  · show NN b.offset; unfold NN; omega
  · show NN b.fileSize; rw [w4]; exact a4
  · show NN b.prevSeqId; rw [w3]; exact a5
  · show NN b.name.length; rw [w1]; exact a6
  · show b.status ≤ 4; rw [w5]; exact a7
  · rw [w1]; exact hn
  · intro h
    rw [w5] at h
    have := hd h
    rw [w4]
    omega
  · rw [w2]; omega
  · omega

theorem RestOf.without {Q : List Source} {a b : Source} {r : Int} (h : RestOf Q a) (w : Without a b r) (h0 : 0 ≤ r) : RestOf Q b := by
  obtain ⟨x, hx, r', h1, v⟩ := h
  refine ⟨x, hx, r' + r, by omega, w.name.trans v.name, w.seqId.trans v.seqId, w.prev.trans v.prev, w.fileSize.trans v.fileSize,
    w.status.trans v.status, ?_, ?_⟩
  · rw [w.offset, v.offset]; omega
  · rw [w.size, v.size]; omega

theorem ApartSrc.without {a a' b b' : Source} {r s : Int} (h : ApartSrc a b) (w : Without a a' r) (v : Without b b' s)
    (hr : 0 ≤ r) (hr' : r = 0 ∨ r < a.size) (hs : 0 ≤ s) (hs' : s = 0 ∨ s < b.size) : ApartSrc a' b' := by
  have e1 := w.offset; have e2 := w.size; have e3 := v.offset; have e4 := v.size
  rcases h with h | ⟨h1, h2, h3⟩
  · exact .inl (by rw [w.seqId, v.seqId]; exact h)
  · refine .inr ⟨by omega, by omega, ?_⟩
    rcases h3 with h3 | h3
    · left; omega
    · right; omega

/-- A write of the beginning of a source is good. -/
theorem good_write {c : BCfg} {Q : List Source} {x : Source} (ho : RestOf Q x) (hs : Sendable c x) (m : Nat) :
    GoodWrite c Q (x.details.carried c.ver, (x.data c.src).take m) := by
  obtain ⟨z, hz, r, hr, w⟩ := ho
  have e1 := w.offset
  have e2 := w.size
  have hl := hs.data_length
  refine ⟨z, hz, w.name, w.seqId, w.fileSize, ?_, ?_, ?_, ?_⟩
  · show z.offset ≤ x.offset; omega
  · show x.offset + x.size = _; omega
  · show (((x.data c.src).take m).length : Int) ≤ x.size
    rw [List.length_take]; omega
  · show (x.data c.src).take m = ((c.src z.seqId).drop x.offset.toNat).take ((x.data c.src).take m).length
    rw [List.length_take, ← w.seqId]
    unfold Source.data
    rw [List.take_take, List.length_take, List.take_eq_take_iff]
    omega

theorem good_full {c : BCfg} {Q : List Source} {x : Source} (ho : RestOf Q x) (hs : Sendable c x) : GoodWrite c Q (wholeWrite c x) := by
  have := good_write (c := c) ho hs (x.data c.src).length
  rw [List.take_length] at this
  exact this

/-- What a checkpoint credits to the first source it does not count. -/
theorem credit {c : BCfg} {Q : List Source} {S : BSys} (hi : BrkInv c Q S) {srcs rest done pend : List Source}
    (hp : (srcs ++ rest).Perm S.queue) {cp' : RcvCp} {ws : List (BlockDetails × Bytes)}
    (he : CutEffect c c.st.enableChecksum S.cp cp' srcs ws done pend) {x : Source} {tl : List Source} (hx : pend = x :: tl) :
    0 ≤ cpBytes x (some cp'.msg) ∧
    (cpBytes x (some cp'.msg) = 0 ∨
      cpBytes x (some cp'.msg) < x.size ∧
      (∃ m : Nat, (m : Int) = cpBytes x (some cp'.msg) ∧
        m ≤ (x.data c.src).length ∧
        (x.details.carried c.ver, (x.data c.src).take m) ∈ ws)) := by
  have hxq : x ∈ S.queue := hp.subset (by rw [he.split, hx]; simp)
  have hsx := (hi.send x hxq).data_length
  have key : ∀ (l : Option (Int × Int × Int)), cp'.last = l →
      cpBytes x (some cp'.msg) =
        if (l.getD (0, 0, 0)).1 = x.seqId ∧ (l.getD (0, 0, 0)).2.1 = x.offset then (l.getD (0, 0, 0)).2.2 else 0 := by
    intro l hl
    unfold cpBytes RcvCp.msg
    simp only [hl, if_true]
  have hnone : cp'.last = none →
      cpBytes x (some cp'.msg) = 0 := by
    intro h
    rw [key none h]
    simp
  rcases he.rest with ⟨h1, h2⟩ | ⟨y, tl', m, _, h1, h2, h3, h4⟩ | ⟨_, _, _, _, h4⟩
  · split at h2
    · cases hl : S.cp.last with
      | none =>
        have := hnone (h2.trans hl)
        omega
      | some l =>
        obtain ⟨q, o, w⟩ := l
        obtain ⟨k1, k2⟩ := hi.last q o w hl
        have e := key (some (q, o, w)) (h2.trans hl)
        simp only [Option.getD_some] at e
        split at e
        · rename_i hm
          exact absurd hm.2.symm (k2 x hxq hm.1.symm)
        · omega
    · have := hnone h2
      omega
  · rw [hx] at h1
    obtain ⟨rfl, rfl⟩ := List.cons.inj h1
    have e := key (some (x.seqId, x.offset, (m : Int))) h4
    simp only [Option.getD_some, and_self, if_true] at e
    refine ⟨by omega, .inr ⟨by omega, m, e.symm, by omega, ?_⟩⟩
    rw [h3]; simp
  · have := hnone h4
    omega

/-- What a checkpoint gives back. -/
theorem give_back {c : BCfg} {Q : List Source} {S : BSys} (hi : BrkInv c Q S) {srcs done pend : List Source} {cp' : RcvCp} {ws : List (BlockDetails × Bytes)}
    (he : CutEffect c c.st.enableChecksum S.cp cp' srcs ws done pend) {h' : Hist} {code : CpRes} {l : List (Source × Source)}
    (hs : setCheckpoint (srcs.foldl (fun h s => (addSource h s).1) S.hist)
      cp'.msg false = .ok (code, h', l)) (hc : code ≠ .invalid) :
    (pend = [] ∧ l = []) ∨ ∃ x tl l₀ x', pend = x :: tl ∧ l = l₀ ++ [(x, x')] ∧ l₀.map Prod.fst = tl.reverse ∧
      (∀ p ∈ l₀, Without p.1 p.2 0) ∧ Without x x' (cpBytes x (some cp'.msg)) := by
  obtain ⟨a1, a2, a3⟩ := addSources_hist srcs S.hist hi.noGlobal
  obtain ⟨hsplit, hcount, hrest⟩ := he
  have hnb : cp'.msg.numBlocks = ((S.cp.numBlocks + done.length : Nat) : Int) := by
    show ((cp'.numBlocks : Nat) : Int) = _
    rw [hcount]
  rcases setCheckpoint_ok _ _ _ _ _ _ hs with ⟨hh, _⟩ | ⟨_, h0, hle, hfb, hh, ha, hl, hg, _⟩
  · exact absurd hh hc
  have hdrop : (srcs.foldl (fun h s => (addSource h s).1) S.hist).history.drop
      cp'.msg.numBlocks.toNat = pend := by
    rw [a1, hnb, Int.toNat_natCast, hsplit, ← List.append_assoc, List.drop_left' (by rw [List.length_append, hi.hlen])]
  have hl' : l = (failBack cp'.msg pend.reverse
      (srcs.foldl (fun h s => (addSource h s).1) S.hist).stats).1 := by
    rw [← hdrop]; exact congrArg Prod.fst hfb
  cases hpd : pend with
  | nil => left; refine ⟨rfl, ?_⟩; rw [hl', hpd]; rfl
  | cons x tl =>
    right
    obtain ⟨l₀, x', b1, b2, b3, b4⟩ := failBack_split cp'.msg x tl.reverse
      (srcs.foldl (fun h s => (addSource h s).1) S.hist).stats
    refine ⟨x, tl, l₀, x', rfl, ?_, b2, b3, b4⟩
    rw [hl', hpd, List.reverse_cons]
    exact b1

/-- Writes on a broken connection are good. -/
theorem break_writes {c : BCfg} {Q : List Source} {S : BSys} (hi : BrkInv c Q S) {srcs rest done pend : List Source}
    (hp : (srcs ++ rest).Perm S.queue) {cp' : RcvCp} {ws : List (BlockDetails × Bytes)}
    (he : CutEffect c c.st.enableChecksum S.cp cp' srcs ws done pend) :
    ∀ e ∈ S.written ++ ws, GoodWrite c Q e := by
  obtain ⟨hsplit, hcount, hrest⟩ := he
  have hmem : ∀ y, y ∈ done ∨ y ∈ pend → y ∈ S.queue := by
    intro y hy
    apply hp.subset
    rw [hsplit]
    simp only [List.mem_append]
    exact .inl hy
  intro e he
  rcases List.mem_append.1 he with he | he
  · exact hi.good e he
  · have hd : ∀ y ∈ done, GoodWrite c Q (wholeWrite c y) := fun y hy =>
      good_full (hi.origin y (hmem y (.inl hy))) (hi.send y (hmem y (.inl hy)))
    rcases hrest with ⟨h1, _⟩ | ⟨x, tl, m, _, hx, _, h3, _⟩ | ⟨more, _, h3, hmore, _⟩
    · rw [h1] at he
      obtain ⟨y, hy, rfl⟩ := List.mem_map.1 he
      exact hd y hy
    · rw [h3] at he
      rcases List.mem_append.1 he with he | he
      · obtain ⟨y, hy, rfl⟩ := List.mem_map.1 he
        exact hd y hy
      · rw [List.mem_singleton] at he
        have hm := hmem x (.inr (by rw [hx]; exact List.mem_cons_self))
        rw [he]
        exact good_write (hi.origin x hm) (hi.send x hm) m
    · rw [h3] at he
      rcases List.mem_append.1 he with he | he
      · obtain ⟨y, hy, rfl⟩ := List.mem_map.1 he
        exact hd y hy
      · obtain ⟨x, hx, m, rfl⟩ := hmore e he
        exact good_write (hi.origin x (hmem x (.inr hx))) (hi.send x (hmem x (.inr hx))) m

theorem break_step {c : BCfg} {Q : List Source} {S : BSys} (hi : BrkInv c Q S) {srcs rest done pend : List Source}
    (hp : (srcs ++ rest).Perm S.queue) {cp' : RcvCp} {ws : List (BlockDetails × Bytes)}
    (he : CutEffect c c.st.enableChecksum S.cp cp' srcs ws done pend) {h' : Hist} {code : CpRes} {l : List (Source × Source)}
    (hs : setCheckpoint (srcs.foldl (fun h s => (addSource h s).1) S.hist)
      cp'.msg false = .ok (code, h', l)) (hc : code ≠ .invalid) :
    BrkInv c Q ⟨h', cp', S.written ++ ws,
      rest ++ l.map Prod.snd⟩ := by
  obtain ⟨a1, a2, a3⟩ := addSources_hist srcs S.hist hi.noGlobal
  have hcr := fun x tl hx => credit (x := x) (tl := tl) hi hp he hx
  have hbk := give_back hi he hs hc
  have hgd := break_writes hi hp he
  obtain ⟨hsplit, hcount, hrest⟩ := he
  have hnb : cp'.msg.numBlocks = ((S.cp.numBlocks + done.length : Nat) : Int) := by
    show ((cp'.numBlocks : Nat) : Int) = _
    rw [hcount]
  rcases setCheckpoint_ok _ _ _ _ _ _ hs with ⟨hh, _⟩ | ⟨_, h0, hle, hfb, hh, ha, hl, hg, _⟩
  · exact absurd hh hc
  have hback := hbk
  -- every source given back is what remains of one of the pending ones
  have hgive : ∀ p ∈ l, p.1 ∈ pend ∧ ∃ r, Without p.1 p.2 r ∧ 0 ≤ r ∧ (r = 0 ∨ r < p.1.size ∧
      ∃ m : Nat, (m : Int) = r ∧ m ≤ (p.1.data c.src).length ∧
        (p.1.details.carried c.ver, (p.1.data c.src).take m) ∈ ws) := by
    rcases hback with ⟨_, hln⟩ | ⟨x, tl, l₀, x', b1, b2, b3, b4, b5⟩
    · intro p hp; rw [hln] at hp; cases hp
    · intro p hp
      rw [b2] at hp
      rcases List.mem_append.1 hp with hp | hp
      · refine ⟨?_, 0, b4 p hp, Int.le_refl 0, .inl rfl⟩
        have : p.1 ∈ tl.reverse := by rw [← b3]; exact List.mem_map_of_mem hp
        rw [b1]
        exact List.mem_cons_of_mem _ (List.mem_reverse.1 this)
      · rw [List.mem_singleton] at hp
        subst hp
        refine ⟨by rw [b1]; exact List.mem_cons_self, _, b5, ?_⟩
        exact hcr x tl b1
  have hperm : (rest ++ (done ++ pend)).Perm S.queue := by
    rw [← hsplit]
    exact List.perm_append_comm.trans hp
  have hap : (rest ++ (done ++ pend)).Pairwise ApartSrc := (hperm.pairwise_iff ApartSrc.symm).2 hi.apart
  have hmem : ∀ y, y ∈ rest ∨ y ∈ done ∨ y ∈ pend → y ∈ S.queue := by
    intro y hy
    apply hperm.subset
    simp only [List.mem_append]
    exact hy
  have hmem' : ∀ y ∈ S.queue, y ∈ rest ∨ y ∈ done ∨ y ∈ pend := by
    intro y hy
    have := hperm.symm.subset hy
    simpa only [List.mem_append] using this
  have hfst : l.map Prod.fst = pend.reverse := by
    rcases hback with ⟨h1, hln⟩ | ⟨x, tl, l₀, x', b1, b2, b3, b4, b5⟩
    · rw [h1, hln]; rfl
    · rw [b1, b2, List.map_append, b3, List.reverse_cons]; rfl
  have hpre : ∀ y ∈ pend, ∃ p ∈ l, p.1 = y := by
    intro y hy
    have : y ∈ l.map Prod.fst := by rw [hfst]; exact List.mem_reverse.2 hy
    obtain ⟨p, hp, e⟩ := List.mem_map.1 this
    exact ⟨p, hp, e⟩
  have hdw : ∀ y ∈ done, wholeWrite c y ∈ ws := by
    intro y hy
    rcases hrest with ⟨h1, _⟩ | ⟨_, _, _, _, _, _, h3, _⟩ | ⟨_, _, h3, _, _⟩
    · rw [h1]; exact List.mem_map_of_mem hy
    · rw [h3]; exact List.mem_append_left _ (List.mem_map_of_mem hy)
    · rw [h3]; exact List.mem_append_left _ (List.mem_map_of_mem hy)
  refine ⟨by rw [hg, a2]; rfl, ?_, .inr hl, ?_, ?_, ?_, ?_, ?_, ?_, ?_, ?_⟩
  · -- hlen
    show h'.history.length = _
    rw [hh, List.length_take, hnb, a1, Int.toNat_natCast, hcount, List.length_append, hi.hlen, hsplit, List.length_append]
    omega
  · -- good
    exact hgd
  · -- lastNone
    intro hf
    show cp'.last = none
    rcases hrest with ⟨_, h2⟩ | ⟨x, tl, m, hff, _⟩ | ⟨_, _, _, _, h4⟩
    · rw [h2, hi.lastNone hf]; simp
    · rw [hff] at hf; cases hf
    · exact h4
  · -- last
    intro q o w hlast
    have hlast : cp'.last = some (q, o, w) := hlast
    rcases hrest with ⟨_, h2⟩ | ⟨x, tl, m, hf, hx, hm, _, h4⟩ | ⟨_, _, _, _, h4⟩
    · rw [h2] at hlast
      split at hlast
      · rename_i hd
        obtain ⟨k1, k2⟩ := hi.last q o w hlast
        refine ⟨k1, fun y hy hq => ?_⟩
        rcases List.mem_append.1 hy with hy | hy
        · exact k2 y (hmem y (.inl hy)) hq
        · obtain ⟨p, hp, rfl⟩ := List.mem_map.1 hy
          obtain ⟨g1, r, g2, g3, g4⟩ := hgive p hp
          have hne := k2 p.1 (hmem _ (.inr (.inr g1))) (g2.seqId.symm.trans hq)
          have hr0 : r = 0 := by
            rcases hback with ⟨_, hln⟩ | ⟨x, tl, l₀, x', b1, b2, b3, b4, b5⟩
            · rw [hln] at hp; cases hp
            · rw [b2] at hp
              rcases List.mem_append.1 hp with hp | hp
              · have e1 := (b4 p hp).offset
                have e2 := g2.offset
                omega
              · rw [List.mem_singleton] at hp
                have e1 := b5.offset
                have e2 := g2.offset
                rw [hp] at e2 hne
                simp only at e2 hne
                have : cpBytes x (some cp'.msg) = 0 := by
                  unfold cpBytes RcvCp.msg
                  simp only [h2, if_pos hd, hlast, Option.getD_some, if_true]
                  rw [if_neg]
                  intro hcon
                  exact hne hcon.2.symm
                omega
          rw [g2.offset, hr0, Int.add_zero]
          exact hne
      · cases hlast
    · rw [h4] at hlast
      have hlast' := Option.some.inj hlast
      simp only [Prod.mk.injEq] at hlast'
      obtain ⟨rfl, rfl, rfl⟩ := hlast'
      have hxsm := (hi.send x (hmem x (.inr (.inr (by rw [hx]; exact List.mem_cons_self))))).small
      have hm0 := hm.2 hxsm
      refine ⟨by omega, fun y hy hq => ?_⟩
      have hxs := (hi.send x (hmem x (.inr (.inr (by rw [hx]; exact List.mem_cons_self))))).data_length
      have haway : ∀ z, ApartSrc x z → z.seqId = x.seqId → z.offset ≠ x.offset := by
        intro z hz hqz
        rcases hz with h | ⟨h1, h2, h3⟩
        · exact absurd hqz.symm h
        · omega
      rw [hx] at hap
      rcases List.mem_append.1 hy with hy | hy
      · refine haway y ?_ hq
        exact (List.pairwise_append.1 hap).2.2 y hy x (by simp) |>.symm
      · rcases hback with ⟨hnil, _⟩ | ⟨x2, tl2, l₀, x', b1, b2, b3, b4, b5⟩
        · rw [hx] at hnil; cases hnil
        · rw [hx] at b1
          obtain ⟨rfl, rfl⟩ := List.cons.inj b1
          obtain ⟨p, hp, rfl⟩ := List.mem_map.1 hy
          rw [b2] at hp
          rcases List.mem_append.1 hp with hp | hp
          · have hz : p.1 ∈ tl := by
              have : p.1 ∈ tl.reverse := by rw [← b3]; exact List.mem_map_of_mem hp
              exact List.mem_reverse.1 this
            have hxz : ApartSrc x p.1 :=
              (List.pairwise_cons.1 (List.pairwise_append.1 (List.pairwise_append.1 hap).2.1).2.1).1 p.1 hz
            have := haway p.1 hxz ((b4 p hp).seqId.symm.trans hq)
            rw [(b4 p hp).offset, Int.add_zero]
            exact this
          · rw [List.mem_singleton] at hp
            subst hp
            have e := b5.offset
            have : cpBytes x (some cp'.msg) = m := by
              unfold cpBytes RcvCp.msg
              rw [h4]
              simp
            show x'.offset ≠ x.offset
            omega
    · rw [h4] at hlast; cases hlast
  · -- send
    intro y hy
    rcases List.mem_append.1 hy with hy | hy
    · exact hi.send y (hmem y (.inl hy))
    · obtain ⟨p, hp, rfl⟩ := List.mem_map.1 hy
      obtain ⟨g1, r, g2, g3, g4⟩ := hgive p hp
      have hsd := hi.send p.1 (hmem _ (.inr (.inr g1)))
      have h0 : 0 ≤ p.1.size := hsd.wf.2.1.1
      exact hsd.without g2 g3 (by omega)
  · -- apart
    show (rest ++ l.map Prod.snd).Pairwise ApartSrc
    obtain ⟨p1, p2, p3⟩ := List.pairwise_append.1 hap
    have hpd := (List.pairwise_append.1 p2).2.1
    have hself : ∀ y : Source, Without y y 0 := fun y => ⟨rfl, rfl, rfl, rfl, rfl, by omega, by omega⟩
    refine List.pairwise_append.2 ⟨p1, ?_, ?_⟩
    · rw [List.pairwise_map]
      have hrev : (l.map Prod.fst).Pairwise ApartSrc := by
        rw [hfst, List.pairwise_reverse]
        exact hpd.imp ApartSrc.symm
      rw [List.pairwise_map] at hrev
      refine hrev.imp_of_mem ?_
      intro a b ha hb hab
      obtain ⟨_, r, g2, g3, g4⟩ := hgive a ha
      obtain ⟨_, s, k2, k3, k4⟩ := hgive b hb
      exact hab.without g2 k2 g3 (by omega) k3 (by omega)
    · intro a ha b hb
      obtain ⟨p, hp, rfl⟩ := List.mem_map.1 hb
      obtain ⟨g1, r, g2, g3, g4⟩ := hgive p hp
      exact (p3 a ha p.1 (List.mem_append_right _ g1)).without (hself a) g2 (Int.le_refl 0) (.inl rfl) g3 (by omega)
  · -- origin
    intro y hy
    rcases List.mem_append.1 hy with hy | hy
    · exact hi.origin y (hmem y (.inl hy))
    · obtain ⟨p, hp, rfl⟩ := List.mem_map.1 hy
      obtain ⟨g1, r, g2, g3, g4⟩ := hgive p hp
      exact (hi.origin p.1 (hmem _ (.inr (.inr g1)))).without g2 g3
  · -- cover
    intro x hx p h1 h2
    rcases hi.cover x hx p h1 h2 with h | ⟨y, hy, hq, k1, k2⟩
    · exact .inl h.mono
    · rcases hmem' y hy with hy' | hy' | hy'
      · exact .inr ⟨y, List.mem_append_left _ hy', hq, k1, k2⟩
      · left
        refine ⟨wholeWrite c y, List.mem_append_right _ (hdw y hy'), hq, k1, ?_⟩
        show p < y.offset + ((y.data c.src).length : Int)
        rw [(hi.send y hy).data_length]; exact k2
      · obtain ⟨e, he, rfl⟩ := hpre y hy'
        obtain ⟨g1, r, g2, g3, g4⟩ := hgive e he
        have e1 := g2.offset
        have e2 := g2.size
        by_cases hlt : p < e.1.offset + r
        · left
          rcases g4 with g4 | ⟨_, m, m1, m2, m3⟩
          · omega
          · refine ⟨_, List.mem_append_right _ m3, hq, k1, ?_⟩
            show p < e.1.offset + (((e.1.data c.src).take m).length : Int)
            rw [List.length_take, Nat.min_eq_left m2]
            omega
        · right
          exact ⟨e.2, List.mem_append_right _ (List.mem_map_of_mem he), g2.seqId.trans hq, by omega, by omega⟩
  · -- ended
    intro x hx
    rcases hi.ended x hx with ⟨e, he, h⟩ | ⟨y, hy, hn, hq, k⟩
    · exact .inl ⟨e, List.mem_append_left _ he, h⟩
    · rcases hmem' y hy with hy' | hy' | hy'
      · exact .inr ⟨y, List.mem_append_left _ hy', hn, hq, k⟩
      · left
        refine ⟨wholeWrite c y, List.mem_append_right _ (hdw y hy'), hn, hq, ?_⟩
        show y.offset + ((y.data c.src).length : Int) = _
        rw [(hi.send y hy).data_length]; exact k
      · obtain ⟨e, he, rfl⟩ := hpre y hy'
        obtain ⟨g1, r, g2, g3, g4⟩ := hgive e he
        have e1 := g2.offset
        have e2 := g2.size
        right
        exact ⟨e.2, List.mem_append_right _ (List.mem_map_of_mem he), g2.name.trans hn, g2.seqId.trans hq, by omega⟩

theorem perm_sum_int {a b : List Int} (h : a.Perm b) : a.sum = b.sum := by
  induction h with
  | nil => rfl
  | cons x _ ih => rw [List.sum_cons, List.sum_cons, ih]
  | swap x y l => simp only [List.sum_cons]; omega
  | trans _ _ ih1 ih2 => exact ih1.trans ih2

/-- Without checksums no byte is sent again that arrived. -/
theorem break_sum {c : BCfg} {Q : List Source} {S : BSys} (hi : BrkInv c Q S) {srcs rest done pend : List Source}
    (hp : (srcs ++ rest).Perm S.queue) {cp' : RcvCp} {ws : List (BlockDetails × Bytes)}
    (he : CutEffect c c.st.enableChecksum S.cp cp' srcs ws done pend) {h' : Hist} {code : CpRes} {l : List (Source × Source)}
    (hs : setCheckpoint (srcs.foldl (fun h s => (addSource h s).1) S.hist)
      cp'.msg false = .ok (code, h', l)) (hc : code ≠ .invalid)
    (hf : c.st.enableChecksum = false) :
    ((ws).map fun e => (e.2.length : Int)).sum + ((rest ++ l.map Prod.snd).map Source.size).sum =
      (S.queue.map Source.size).sum := by
  have hbk := give_back hi he hs hc
  have hcr := fun x tl hx => credit (x := x) (tl := tl) hi hp he hx
  obtain ⟨hsplit, hcount, hrest⟩ := he
  have hq : (S.queue.map Source.size).sum = (done.map Source.size).sum + (pend.map Source.size).sum + (rest.map Source.size).sum := by
    rw [← perm_sum_int (hp.map Source.size), hsplit]
    simp only [List.map_append, List.sum_append]
  have hmem : ∀ y, y ∈ done ∨ y ∈ pend → y ∈ S.queue := by
    intro y hy
    apply hp.subset
    rw [hsplit]
    simp only [List.mem_append]
    exact .inl hy
  have hd : ∀ d : List Source, (∀ y ∈ d, y ∈ S.queue) →
      ((d.map (wholeWrite c)).map fun e => (e.2.length : Int)).sum = (d.map Source.size).sum := by
    intro d hd
    rw [List.map_map]
    congr 1
    apply List.map_congr_left
    intro y hy
    exact (hi.send y (hd y hy)).data_length
  have hdone := hd done fun y hy => hmem y (.inl hy)
  rcases hbk with ⟨h1, h2⟩ | ⟨x, tl, l₀, x', b1, b2, b3, b4, b5⟩
  · subst h1 h2
    rcases hrest with ⟨k1, _⟩ | ⟨_, _, _, _, k, _⟩ | ⟨_, k, _⟩
    · rw [k1, hdone, hq]
      simp only [List.map_nil, List.append_nil, List.sum_nil]
      omega
    · cases k
    · rw [hf] at k; cases k
  · have hl0 : ((l₀.map Prod.snd).map Source.size).sum = (tl.map Source.size).sum := by
      have : (l₀.map Prod.snd).map Source.size = (l₀.map Prod.fst).map Source.size := by
        rw [List.map_map, List.map_map]
        apply List.map_congr_left
        intro p hp
        have := (b4 p hp).size
        show p.2.size = p.1.size
        omega
      rw [this, b3, List.map_reverse, List.sum_reverse]
    have hsz := b5.size
    have hall : ((rest ++ l.map Prod.snd).map Source.size).sum = (rest.map Source.size).sum + (tl.map Source.size).sum + x'.size := by
      rw [b2]
      simp only [List.map_append, List.sum_append, List.map_cons, List.map_nil, List.sum_cons, List.sum_nil]
      rw [hl0]
      omega
    rw [hall, hq, b1, List.map_cons, List.sum_cons]
    rcases hrest with ⟨k1, k2⟩ | ⟨y, tl', m, _, k1, k2, k3, k4⟩ | ⟨_, k, _⟩
    · have h0 : cpBytes x (some cp'.msg) = 0 := by
        rcases (hcr x tl b1).2 with h | ⟨_, m, m1, _, _⟩
        · exact h
        · split at k2
          · have hl := k2
            cases hlast : S.cp.last with
            | none =>
              rw [hlast] at hl
              unfold cpBytes RcvCp.msg
              rw [hl]; simp
            | some t =>
              obtain ⟨q, o, w⟩ := t
              rw [hlast] at hl
              unfold cpBytes RcvCp.msg
              simp only [hl, Option.getD_some, if_true]
              split
              · rename_i hm'
                have hw := hi.last q o w hlast
                exact absurd hm'.2.symm (hw.2 x (hmem x (.inr (by rw [b1]; exact List.mem_cons_self))) hm'.1.symm)
              · rfl
          · unfold cpBytes RcvCp.msg
            rw [k2]; simp
      rw [k1, hdone]
      omega
    · rw [b1] at k1
      obtain ⟨rfl, rfl⟩ := List.cons.inj k1
      have hm : cpBytes x (some cp'.msg) = m := by
        unfold cpBytes RcvCp.msg
        rw [k4]
        simp
      rw [k3, List.map_append, List.sum_append, hdone]
      simp only [List.map_cons, List.map_nil, List.sum_cons, List.sum_nil, List.length_take]
      omega
    · rw [hf] at k; cases k

/-- A checkpoint is refused only in one situation. -/
theorem refused_step {c : BCfg} {Q : List Source} {S : BSys} (hi : BrkInv c Q S) {srcs rest done pend : List Source}
    (hp : (srcs ++ rest).Perm S.queue) {cp' : RcvCp} {ws : List (BlockDetails × Bytes)}
    (he : CutEffect c c.st.enableChecksum S.cp cp' srcs ws done pend) {h' : Hist} {l : List (Source × Source)}
    (hs : setCheckpoint (srcs.foldl (fun h s => (addSource h s).1) S.hist)
      cp'.msg false = .ok (.invalid, h', l)) :
    c.st.enableChecksum = false ∧ ∃ x ∈ S.queue, x.seqId = 0 ∧ x.offset = 0 := by
  obtain ⟨a1, a2, a3⟩ := addSources_hist srcs S.hist hi.noGlobal
  obtain ⟨hsplit, hcount, hrest⟩ := he
  have hmq : ∀ y ∈ pend, y ∈ S.queue := fun y hy => hp.subset (by rw [hsplit]; simp [hy])
  generalize cp' = cp at *
  have hnb : cp.msg.numBlocks = ((S.cp.numBlocks + done.length : Nat) : Int) := by
    show ((cp.numBlocks : Nat) : Int) = _
    rw [hcount]
  unfold setCheckpoint at hs
  rw [if_neg (by rw [a1, hnb, List.length_append, hi.hlen, hsplit, List.length_append]; omega), a3] at hs
  rcases hi.lastCp with hl | hl
  · rw [hl] at hs
    simp only [validateCp] at hs
    rw [if_neg (by omega)] at hs
    cases hs
  · rw [hl] at hs
    have hv : validateCp (some S.cp.msg) cp.msg false = .ok .invalid := by
      cases hv : validateCp (some S.cp.msg) cp.msg false with
      | error e => rw [hv] at hs; cases hs
      | ok r =>
        cases r with
        | invalid => rfl
        | ok => rw [hv] at hs; simp only at hs; rw [if_neg (by omega)] at hs; cases hs
        | noProgress => rw [hv] at hs; simp only at hs; rw [if_neg (by omega)] at hs; cases hs
    have hnb0 : S.cp.msg.numBlocks = (S.cp.numBlocks : Int) := rfl
    unfold validateCp at hv
    simp only at hv
    rw [if_neg (by omega)] at hv
    by_cases hgt : cp.msg.numBlocks > S.cp.msg.numBlocks
    · rw [if_pos hgt] at hv; cases hv
    · rw [if_neg hgt] at hv
      have hd : done = [] := List.length_eq_zero_iff.1 (by omega)
      by_cases hsame : cp.msg.lastBlockSeqId = S.cp.msg.lastBlockSeqId ∧ cp.msg.lastBlockOffset = S.cp.msg.lastBlockOffset
      · rw [if_pos hsame] at hv
        by_cases hne : cp.msg.lastBlockReceivedBytes ≠ S.cp.msg.lastBlockReceivedBytes
        · rcases hrest with ⟨_, h2⟩ | ⟨x, tl, m, hf, hx, hm, h3, h4⟩ | ⟨_, f, _, _, h4⟩
          · rw [if_pos hd] at h2
            exact absurd (by unfold RcvCp.msg; rw [h2]) hne
          · have e1 : cp.msg.lastBlockSeqId = x.seqId := by unfold RcvCp.msg; rw [h4]; rfl
            have e2 : cp.msg.lastBlockOffset = x.offset := by unfold RcvCp.msg; rw [h4]; rfl
            have hxq := hmq x (by rw [hx]; exact List.mem_cons_self)
            refine ⟨hf, x, hxq, ?_⟩
            cases hlast : S.cp.last with
            | none =>
              have w1 : S.cp.msg.lastBlockSeqId = 0 := by unfold RcvCp.msg; rw [hlast]; rfl
              have w2 : S.cp.msg.lastBlockOffset = 0 := by unfold RcvCp.msg; rw [hlast]; rfl
              omega
            | some t =>
              obtain ⟨q, o, w⟩ := t
              obtain ⟨k1, k2⟩ := hi.last q o w hlast
              have w1 : S.cp.msg.lastBlockSeqId = q := by unfold RcvCp.msg; rw [hlast]; rfl
              have w2 : S.cp.msg.lastBlockOffset = o := by unfold RcvCp.msg; rw [hlast]; rfl
              exact absurd (by omega) (k2 x hxq (by omega))
          · have := hi.lastNone f
            exact absurd (by unfold RcvCp.msg; rw [h4, this]) hne
        · rw [if_neg hne] at hv
          simp at hv
      · rw [if_neg hsame] at hv
        split at hv
        · cases hv
        · split at hv <;> cases hv

/-- The sender does not crash on the checkpoint. -/
theorem checkpoint_ok {c : BCfg} {Q : List Source} {S : BSys} (hi : BrkInv c Q S) {srcs done pend : List Source} {cp' : RcvCp} {ws : List (BlockDetails × Bytes)}
    (he : CutEffect c c.st.enableChecksum S.cp cp' srcs ws done pend) :
    ∃ r, setCheckpoint (srcs.foldl (fun h s => (addSource h s).1) S.hist)
      cp'.msg false = .ok r := by
  obtain ⟨a1, a2, a3⟩ := addSources_hist srcs S.hist hi.noGlobal
  obtain ⟨hsplit, hcount, hrest⟩ := he
  generalize cp' = cp at *
  have hnb : cp.msg.numBlocks = ((S.cp.numBlocks + done.length : Nat) : Int) := by
    show ((cp.numBlocks : Nat) : Int) = _
    rw [hcount]
  have hw : 0 ≤ cp.msg.lastBlockReceivedBytes := by
    have hnone : cp.last = none → 0 ≤ cp.msg.lastBlockReceivedBytes := by
      intro h; unfold RcvCp.msg; rw [h]; exact Int.le_refl 0
    rcases hrest with ⟨_, h2⟩ | ⟨x, tl, m, _, _, _, _, h4⟩ | ⟨_, _, _, _, h4⟩
    · split at h2
      · cases hl : S.cp.last with
        | none => exact hnone (h2.trans hl)
        | some t =>
          obtain ⟨q, o, w⟩ := t
          have := (hi.last q o w hl).1
          unfold RcvCp.msg
          rw [h2, hl]
          exact Int.le_of_lt this
      · exact hnone h2
    · unfold RcvCp.msg; rw [h4]
      show (0 : Int) ≤ m
      omega
    · exact hnone h4
  unfold setCheckpoint
  by_cases hle : cp.msg.numBlocks > (srcs.foldl (fun h s => (addSource h s).1) S.hist).history.length
  · exact ⟨_, by rw [if_pos hle]⟩
  · rw [if_neg hle]
    have hv : ∃ r, validateCp (srcs.foldl (fun h s => (addSource h s).1) S.hist).lastCp cp.msg false = .ok r := by
      unfold validateCp
      cases (srcs.foldl (fun h s => (addSource h s).1) S.hist).lastCp with
      | none => exact ⟨_, rfl⟩
      | some l =>
        simp only
        split
        · exact ⟨_, rfl⟩
        · split
          · exact ⟨_, rfl⟩
          · split
            · split
              · exact ⟨_, rfl⟩
              · exact ⟨_, rfl⟩
            · rw [if_neg (by omega)]
              split <;> exact ⟨_, rfl⟩
    obtain ⟨r, hr⟩ := hv
    rw [hr]
    cases r with
    | invalid => exact ⟨_, rfl⟩
    | ok => simp only; rw [if_neg (by omega)]; exact ⟨_, rfl⟩
    | noProgress => simp only; rw [if_neg (by omega)]; exact ⟨_, rfl⟩

end Wdt
