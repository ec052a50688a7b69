import Verif.Lemmas.Damage

/-!
# C110: with checksums, connections may damage data and break, again and again, and the transfer still completes
-/

namespace Wdt

/-- All that is sent before the data of the source `x`: settings, the items before it, its header. -/
def sentBefore (c : BCfg) (pre : List BItem) (st : UInt8) (x : Source) : Bytes :=
  (SETTINGS_CMD :: settingsBytes c.ver c.st) ++
    ((pre.map (BItem.sent c.src)).flatMap (SItem.bytes c.hver c.crc c.st.enableChecksum) ++ headBytes c.hver st x.details)

/-- What arrives of what is sent: its beginning; or, with the data of one source damaged within 32 consecutive bits or in
an odd number of bits, its beginning up to the checksum of that source (command and number, at most 10 bytes) and
anything at all behind that. -/
inductive Arrives (c : BCfg) (t : BTry) : Bytes → Prop
  | cut {stream : Bytes} {p : Nat} : t.stream c = .ok stream → p < stream.length → Arrives c t (stream.take p)
  | damaged {pre post : List BItem} {st : UInt8} {x : Source} {behind behind' data' : Bytes} {p : Nat} :
      t.items = pre ++ .file st x :: post →
      t.stream c = .ok (sentBefore c pre st x ++ (x.data c.src ++ behind)) →
      DamagedWithin32 (x.data c.src) data' ∨ DamagedOdd (x.data c.src) data' →
      behind'.take 10 = behind.take 10 →
      Arrives c t ((sentBefore c pre st x ++ (data' ++ behind')).take p)

theorem damaged_data {data data' : Bytes} (h : DamagedWithin32 data data' ∨ DamagedOdd data data') :
    data'.length = data.length ∧ data'.foldl crc32c 0 ≠ data.foldl crc32c 0 := by
  rcases h with h | h
  · exact ⟨(C109_burst _ _ h).1.symm, (C109_burst _ _ h).2⟩
  · exact ⟨h.1.symm, C109_odd _ _ h⟩

/-- What follows the data of a source is its checksum and something. -/
theorem behind_eq {c : BCfg} (hc : c.OK) (hck : c.st.enableChecksum = true) {t : BTry} (ht : t.OK)
    (hs : ∀ y ∈ t.sources, Sendable c y) {pre post : List BItem} {st : UInt8} {x : Source} {behind : Bytes}
    (hit : t.items = pre ++ .file st x :: post)
    (hst : t.stream c = .ok (sentBefore c pre st x ++ (x.data c.src ++ behind))) :
    ∃ R, behind = (FOOTER_CMD :: encodeVarU64Str (zigzag ((x.data c.src).foldl c.crc 0))) ++ R := by
  obtain ⟨w1, w2⟩ := try_items_wf ht hs
  have hle : int32Max ≤ int64Max := by decide
  have hcv := hc.ver
  obtain ⟨buf', e, hbl⟩ := sendSettingsMsg_eq c.ver ⟨hcv.1, by omega⟩ c.st hc.st hc.id hc.chunks t.buf ht.buf
  obtain ⟨q1, q2⟩ := settingsBytes_length c.ver c.st hc.id
  have hb := ht.buf
  obtain ⟨d, es, hd, _⟩ := sendItems_cut c.crc hc.crc c.st.transferId c.ver c.hver hc.hver c.st.enableChecksum t.hbuf ht.hbuf
    t.status t.numBlocks t.total ht.n ht.total (t.items.map (BItem.sent c.src)) buf' 0 (t.items.length + 1) (by omega) w1
    (by omega) w2 (by rw [List.length_map]; omega)
  have hfull : t.stream c = .ok ((SETTINGS_CMD :: settingsBytes c.ver c.st) ++
      ((t.items.map (BItem.sent c.src)).flatMap (SItem.bytes c.hver c.crc c.st.enableChecksum) ++ d)) := by
    unfold BTry.stream
    rw [sendStream, e]
    simp only [es]
  rw [hst] at hfull
  have heq := Except.ok.inj hfull
  rw [hit, List.map_append, List.map_cons, List.flatMap_append, List.flatMap_cons] at heq
  unfold sentBefore at heq
  rw [hck] at heq
  have hblk : SItem.bytes c.hver c.crc true (BItem.sent c.src (.file st x)) =
      headBytes c.hver st x.details ++ x.data c.src ++ (FOOTER_CMD :: encodeVarU64Str (zigzag ((x.data c.src).foldl c.crc 0))) := rfl
  rw [hblk] at heq
  simp only [List.append_assoc] at heq
  have h1 := List.append_cancel_left heq
  have h2 := List.append_cancel_left h1
  have h3 := List.append_cancel_left h2
  have h4 := List.append_cancel_left h3
  exact ⟨_, h4⟩

/-- One connection. -/
theorem arrive_ok {c : BCfg} (hc : c.OK) (hcrc : c.crc = crc32c) (hck : c.st.enableChecksum = true) {Q : List Source}
    (hQ : ∀ x ∈ Q, 0 ≤ x.offset) {S : BSys} {W : List (BlockDetails × Bytes)} (hi : DamInv c Q S W) {t : BTry} (ht : t.OK)
    {got : Bytes} (hg : Arrives c t got) :
    bArrive c S t got = .ok .blocked ∨ ∃ S' W', bArrive c S t got = .ok (.next S') ∧ DamInv c Q S' W' := by
  unfold bArrive
  by_cases hp : (t.sources ++ t.rest).Perm S.queue
  · right
    rw [if_neg (by simp [hp])]
    have hsd : ∀ y ∈ t.sources, Sendable c y := fun y hy => hi.clean.send y (hp.subset (List.mem_append_left _ hy))
    obtain ⟨w1, w2⟩ := try_items_wf ht hsd
    have hfoot : c.ver ≥ 12 := by
      rcases hc.foot with h | h
      · exact h
      · rw [hck] at h; cases h
    have heff : ∃ obs code done pend more, t.receive c got = .ok (obs, .reconnect code) ∧
        DamEffect c S.cp (obs.foldl (RcvCp.step c.st.enableChecksum) S.cp) t.sources (obs.filterMap RObs.write) done pend more := by
      cases hg with
      | @cut stream p hs hpl =>
        obtain ⟨stream', e, _, hb⟩ := receive_cut t.frag c.crc hc.crc c.ver c.hver c.rver hc.ver hc.hver hc.acc c.st hc.st hc.id hc.chunks
          hc.foot (t.items.map (BItem.sent c.src)) w1 w2 t.status t.numBlocks t.total ht.n ht.total t.buf t.hbuf t.rbuf ht.buf ht.hbuf
          ht.rbuf t.footer0 (t.items.length + 2) (by rw [List.length_map]; omega)
        have e' : t.stream c = .ok stream' := e
        rw [hs] at e'
        obtain rfl := Except.ok.inj e'
        obtain ⟨obs, k1, k2⟩ := hb p hpl
        rw [hck] at k2 ⊢
        have heff : ∃ done pend, CutEffect c true S.cp (obs.foldl (RcvCp.step true) S.cp) t.sources
            (obs.filterMap RObs.write) done pend := by
          rcases k2 with ⟨rfl, _⟩ | ⟨obs', rfl, hcut, _⟩
          · exact ⟨[], t.sources, rfl, rfl, .inl ⟨rfl, rfl⟩⟩
          · obtain ⟨d, p, h1, h2, h3⟩ := cut_effect c true t.items obs' S.cp hcut
            exact ⟨d, p, h1, h2, h3⟩
        obtain ⟨done, pend, he⟩ := heff
        obtain ⟨more, he'⟩ := he.dam
        exact ⟨obs, _, done, pend, more, k1, he'⟩
      | @damaged pre post st x behind behind' data' p hit hs hdam h11 =>
        obtain ⟨R, rfl⟩ : ∃ R, behind' = (FOOTER_CMD :: encodeVarU64Str (zigzag ((x.data c.src).foldl c.crc 0))) ++ R := by
          obtain ⟨R, rfl⟩ := behind_eq hc hck ht hsd hit hs
          have hZ := encodeVarU64Str_length_le (zigzag ((x.data c.src).foldl c.crc 0))
          generalize hF : FOOTER_CMD :: encodeVarU64Str (zigzag ((x.data c.src).foldl c.crc 0)) = F at *
          have hFl : F.length ≤ 10 := by rw [← hF, List.length_cons]; omega
          have h2 := congrArg (List.take F.length) h11
          rw [List.take_take, List.take_take, Nat.min_eq_left hFl, List.take_left' rfl] at h2
          refine ⟨behind'.drop F.length, ?_⟩
          rw [← List.take_append_drop F.length behind', h2, List.drop_left' rfl]
        obtain ⟨hl, hne⟩ := damaged_data hdam
        rw [hit, List.map_append, List.map_cons] at w1 w2
        have hcnt : sizeCount (pre.map (BItem.sent c.src)) ≤ 200 := by
          refine Nat.le_trans ?_ w2
          unfold sizeCount
          rw [List.filter_append, List.length_append]
          omega
        obtain ⟨obs, code, k1, k2⟩ := receive_damaged t.frag c.crc hc.crc c.ver c.hver c.rver hc.ver hc.hver hc.acc c.st hc.st hc.id
          hc.chunks hfoot hck (pre.map (BItem.sent c.src)) (fun i hi => w1 i (List.mem_append_left _ hi)) hcnt st x.details
          (x.data c.src) (w1 _ (List.mem_append_right _ List.mem_cons_self)) data' R hl (by rw [hcrc]; exact hne) t.rbuf ht.rbuf
          t.footer0 (t.items.length + 2) (by rw [hit, List.length_append, List.length_map]; simp only [List.length_cons]; omega) p
        have hsrc : t.sources = (pre ++ .file st x :: post).filterMap BItem.source := by unfold BTry.sources; rw [hit]
        have heff : ∃ done pend more, DamEffect c S.cp (obs.foldl (RcvCp.step true) S.cp) t.sources
            (obs.filterMap RObs.write) done pend more := by
          rcases k2 with rfl | ⟨obs', rfl, hcut⟩
          · exact ⟨[], t.sources, [], rfl, rfl, fun h => h, rfl, by simp⟩
          · rw [hsrc]
            obtain ⟨d, p, m, h1, h2, h3, h4, h5⟩ := dam_effect c pre post st x data' hl obs' S.cp hcut
            exact ⟨d, p, m, h1, h2, h3, h4, h5⟩
        obtain ⟨done, pend, more, he⟩ := heff
        refine ⟨obs, code, done, pend, more, ?_, by rw [hck]; exact he⟩
        have hbytes : sentBefore c pre st x ++ (data' ++ ((FOOTER_CMD :: encodeVarU64Str (zigzag ((x.data c.src).foldl c.crc 0))) ++ R)) =
            (SETTINGS_CMD :: settingsBytes c.ver c.st) ++ ((pre.map (BItem.sent c.src)).flatMap (SItem.bytes c.hver c.crc true) ++
              (headBytes c.hver st x.details ++ (data' ++ ((FOOTER_CMD :: encodeVarU64Str (zigzag ((x.data c.src).foldl c.crc 0))) ++ R)))) := by
          unfold sentBefore
          rw [hck]
          simp only [List.append_assoc]
        unfold BTry.receive
        rw [hbytes]
        exact k1
    obtain ⟨obs, code, done, pend, more, h1, h2⟩ := heff
    obtain ⟨res, h', l, h3, h4, h5⟩ := dam_step hck hQ hi hp h2
    rw [h1]
    simp only
    rw [h3]
    cases res with
    | ok => exact ⟨_, _, rfl, h5⟩
    | noProgress => exact ⟨_, _, rfl, h5⟩
    | invalid => exact absurd rfl h4
  · left
    rw [if_pos hp]

theorem aRun_ok {c : BCfg} (hc : c.OK) (hcrc : c.crc = crc32c) (hck : c.st.enableChecksum = true) {Q : List Source}
    (hQ : ∀ x ∈ Q, 0 ≤ x.offset) : ∀ (ts : List (BTry × Bytes)) (S : BSys) (W : List (BlockDetails × Bytes)), DamInv c Q S W →
    (∀ t ∈ ts, t.1.OK ∧ Arrives c t.1 t.2) →
    aRun c S ts = .ok .blocked ∨ ∃ S' W', aRun c S ts = .ok (.next S') ∧ DamInv c Q S' W' := by
  intro ts
  induction ts with
  | nil => intro S W hi _; exact .inr ⟨S, W, rfl, hi⟩
  | cons t ts ih =>
    intro S W hi hts
    obtain ⟨t, got⟩ := t
    obtain ⟨h1, h2⟩ := hts _ List.mem_cons_self
    unfold aRun
    rcases arrive_ok hc hcrc hck hQ hi h1 h2 with h | ⟨S', W', h, hi'⟩
    · rw [h]; exact .inl rfl
    · rw [h]
      exact ih S' W' hi' fun u hu => hts u (List.mem_cons_of_mem _ hu)

/-- **C110** (partial: as in `C99_resume_partial`; on each connection the first damage is to the data of a block and of the
kinds that C109 is about; what comes behind the checksum of that block is arbitrary).  A sender thread with checksums on has sources of different files or
different parts of files to send.  Connection after connection breaks after any number of bytes, or
damages the data of a block, delivers anything behind its checksum and breaks anywhere or not at all; each carries any of
the sources that are still to be sent, in any order.  Then neither side crashes or refuses
the other, nothing is ever written outside the places of the sources, and one good connection completes the transfer: every
position of every source then holds the byte of the source, although damaged data was written
there before, and both sides agree on the number of blocks.  (`.blocked` is a run in which a
connection is given sources that are not in the queue.) -/
theorem C110_resume_partial (c : BCfg) (hc : c.OK) (hcrc : c.crc = crc32c) (hck : c.st.enableChecksum = true)
    (Q : List Source) (hs : ∀ x ∈ Q, Sendable c x) (ha : Q.Pairwise ApartSrc)
    (ts : List (BTry × Bytes)) (hts : ∀ t ∈ ts, t.1.OK ∧ Arrives c t.1 t.2) :
    aRun c { queue := Q } ts = .ok .blocked ∨
    ∃ S, aRun c { queue := Q } ts = .ok (.next S) ∧ (∀ e ∈ S.written, PlacedWrite Q e) ∧
      ∀ t : BTry, t.OK → t.sources.Perm S.queue →
        ∃ S', bGood c S t = .ok (.next S') ∧ S'.queue = [] ∧ (∀ e ∈ S'.written, PlacedWrite Q e) ∧
          S'.hist.history.length = S'.cp.numBlocks ∧ S'.hist.numAcked = S'.cp.numBlocks ∧
          ∀ x ∈ Q, (∃ e ∈ S'.written, e.1.fileName = x.name ∧ e.1.seqId = x.seqId ∧
              e.1.offset + e.2.length = x.offset + x.size) ∧
            ∀ p, x.offset ≤ p → p < x.offset + x.size →
              ∃ b, (c.src x.seqId)[p.toNat]? = some b ∧ contentAt S'.written x.seqId p = some b := by
  have hQ : ∀ x ∈ Q, 0 ≤ x.offset := fun x hx => (hs x hx).wf.2.2.1.1
  have hinit : DamInv c Q { queue := Q } [] :=
    ⟨BrkInv.init hs ha, by simp, (by rintro q p ⟨e, he, _⟩; cases he), (by rintro q p ⟨e, he, _⟩; cases he), by simp⟩
  rcases aRun_ok hc hcrc hck hQ ts { queue := Q } [] hinit hts with h | ⟨S, W, h, hi⟩
  · exact .inl h
  right
  refine ⟨S, h, hi.placed, ?_⟩
  intro t ht hp
  have hb := hi.clean
  have hsd : ∀ y ∈ t.sources, Sendable c y := fun y hy => hb.send y (hp.subset hy)
  obtain ⟨w1, w2⟩ := try_items_wf ht hsd
  obtain ⟨stream, e, hrc⟩ := C34_delivery_partial t.frag c.crc hc.crc c.ver c.hver c.rver hc.ver hc.hver hc.acc c.st hc.st hc.id
    hc.chunks hc.foot (t.items.map (BItem.sent c.src)) w1 w2 t.status t.numBlocks t.total ht.n ht.total t.buf t.hbuf t.rbuf ht.buf
    ht.hbuf ht.rbuf t.footer0 (t.items.length + 2) (by rw [List.length_map]; omega)
  have e' : t.stream c = .ok stream := e
  have hrc' : t.receive c stream = .ok (.settings (c.st.carried c.ver) ::
      (t.items.map (BItem.sent c.src)).flatMap (SItem.obs c.ver c.st.enableChecksum), _) := hrc
  obtain ⟨f1, f2⟩ := full_effect c c.st.enableChecksum t.items S.cp
  obtain ⟨a1, a2, a3⟩ := addSources_hist t.sources S.hist hb.noGlobal
  have f2'' : ((RObs.settings (c.st.carried c.ver) :: (t.items.map (BItem.sent c.src)).flatMap
      (SItem.obs c.ver c.st.enableChecksum)).filterMap RObs.write) = t.sources.map (wholeWrite c) := f2
  have f1' : ((RObs.settings (c.st.carried c.ver) :: (t.items.map (BItem.sent c.src)).flatMap
      (SItem.obs c.ver c.st.enableChecksum)).foldl (RcvCp.step c.st.enableChecksum) S.cp).numBlocks =
      S.cp.numBlocks + t.sources.length := f1
  have hhl : S.hist.history.length = S.cp.numBlocks := hb.hlen
  have hgood : ∀ e ∈ t.sources.map (wholeWrite c), GoodWrite c Q e := by
    intro d hd
    obtain ⟨y, hy, rfl⟩ := List.mem_map.1 hd
    exact good_full (hb.origin y (hp.subset hy)) (hsd y hy)
  have hwr : ∀ y ∈ S.queue, wholeWrite c y ∈ t.sources.map (wholeWrite c) := fun y hy =>
    List.mem_map_of_mem (hp.symm.subset hy)
  unfold bGood
  rw [if_neg (by simp [hp]), e']
  simp only
  rw [hrc']
  refine ⟨_, rfl, rfl, ?_, ?_, ?_, ?_⟩
  · dsimp only
    rw [f2'']
    intro d hd
    rcases List.mem_append.1 hd with hd | hd
    · exact hi.placed d hd
    · obtain ⟨x, hx, g1, g2, g3, g4, g5, g6, _⟩ := hgood d hd
      exact ⟨x, hx, g1, g2, g3, g4, g5, g6⟩
  · show ((t.sources.foldl (fun h s => (addSource h s).1) S.hist).history.length) = _
    rw [a1, List.length_append, hhl, ← f1']
  · show ((t.sources.foldl (fun h s => (addSource h s).1) S.hist).history.length : Int) = _
    rw [a1, List.length_append, hhl, ← f1']
  · dsimp only
    rw [f2'']
    intro x hx
    constructor
    · rcases hb.ended x hx with ⟨d, hd, h⟩ | ⟨y, hy, hn, hq, k⟩
      · exact ⟨d, List.mem_append_left _ (hi.sub d hd), h⟩
      · refine ⟨wholeWrite c y, List.mem_append_right _ (hwr y hy), hn, hq, ?_⟩
        show y.offset + ((y.data c.src).length : Int) = _
        rw [(hb.send y hy).data_length]; exact k
    · intro p hp1 hp2
      have h0 := hQ x hx
      have hl := (hs x hx).len
      obtain ⟨b, hbb⟩ : ∃ b, (c.src x.seqId)[p.toNat]? = some b := ⟨_, List.getElem?_eq_getElem (by omega)⟩
      refine ⟨b, hbb, ?_⟩
      rcases hb.cover x hx p hp1 hp2 with hW | ⟨y, hy, hq, k1, k2⟩
      · rw [contentAt_append_other _ _ _ _ ?_, hi.right _ _ hW, hbb]
        intro d hd hcv
        obtain ⟨z, hz, rfl⟩ := List.mem_map.1 hd
        exact hi.free _ _ hW z (hp.subset hz) ((wholeWrite_covers (hsd z hz)).1 hcv)
      · have hyw : WrittenAt (t.sources.map (wholeWrite c)) x.seqId p :=
          ⟨wholeWrite c y, hwr y hy, (wholeWrite_covers (hb.send y hy)).2 ⟨hq, k1, k2⟩⟩
        rw [contentAt_append_here _ _ _ _ hyw, contentAt_good (c := c) (Q := Q) hQ hgood hyw, hbb]

/-! ### A case -/

/-- As `exBrkCfg`, with the checksum of wdt. -/
def exDamCfg : BCfg := { exBrkCfg true with crc := crc32c }

theorem exDamCfg_ok : exDamCfg.OK :=
  ⟨crc32c_range, (exBrkCfg_ok true).ver, (exBrkCfg_ok true).hver, (exBrkCfg_ok true).acc, (exBrkCfg_ok true).st,
    (exBrkCfg_ok true).id, (exBrkCfg_ok true).chunks, (exBrkCfg_ok true).foot⟩

/-- Two bytes of another file. -/
def exDamZ : Source := { exBrkX 1 with offset := 100, size := 2 }

/-- A connection for both. -/
def exDamTry : BTry := exBrkTry [.file 0 exBrkY, .size 5, .file 0 exDamZ] [] 0

/-- What is sent on it. -/
def exDamSent : Bytes := match exDamTry.stream exDamCfg with | .ok s => s | .error _ => []

/-- What is sent before the data of the first file, and behind it. -/
def exDamPos : Nat := (sentBefore exDamCfg [] 0 exBrkY).length

/-- What arrives behind the data of the first file: its checksum, and then nothing that was sent. -/
def exDamBehind : Bytes := (exDamSent.drop (exDamPos + 3)).take 10 ++ List.replicate 300 9

/-- What arrives: one byte of the first file is damaged, and everything behind its checksum. -/
def exDamGot : Bytes := exDamSent.take exDamPos ++ ([1, 2, 7] ++ exDamBehind)

/-- This is a connection as in the theorem. -/
theorem exDam_arrives : Arrives exDamCfg exDamTry exDamGot := by
  have e : (match exDamTry.stream exDamCfg with
      | .ok s => decide (s = sentBefore exDamCfg [] 0 exBrkY ++ (exBrkY.data exDamCfg.src ++ exDamSent.drop (exDamPos + 3)) ∧
          exDamGot = sentBefore exDamCfg [] 0 exBrkY ++ ([1, 2, 7] ++ exDamBehind) ∧
          exDamBehind.take 10 = (exDamSent.drop (exDamPos + 3)).take 10)
      | .error _ => false) = true := by decide +kernel
  cases h : exDamTry.stream exDamCfg with
  | error _ => rw [h] at e; cases e
  | ok s =>
    rw [h] at e
    obtain ⟨e1, e2, e3⟩ := of_decide_eq_true e
    have hd : DamagedWithin32 (exBrkY.data exDamCfg.src) [1, 2, 7] :=
      ⟨byteBits 1 ++ byteBits 2, byteBits 3, byteBits 7, [], by decide +kernel, by decide +kernel, by decide, by decide, by decide⟩
    have := Arrives.damaged (c := exDamCfg) (t := exDamTry) (pre := []) (post := [.size 5, .file 0 exDamZ]) (st := 0)
      (x := exBrkY) (behind := exDamSent.drop (exDamPos + 3)) (behind' := exDamBehind) (data' := [1, 2, 7])
      (p := exDamGot.length) rfl (by rw [h, e1]) (.inl hd) e3
    rw [← e2, List.take_length] at this
    exact this

/-- The damaged file is written, does not count and goes back to the queue, as the other one does; so it does
when the connection also breaks behind the damage. -/
example : (match aRun exDamCfg { queue := [exBrkY, exDamZ] } [(exDamTry, exDamGot)] with
      | .ok (.next S) => decide (S.written.map (fun e => (e.1.seqId, e.2)) = [(2, [1, 2, 7])] ∧ S.cp = {} ∧
          S.queue.map (fun x => (x.seqId, x.offset, x.size)) = [(1, 100, 2), (2, 0, 3)])
      | _ => false) = true ∧
    (match aRun exDamCfg { queue := [exBrkY, exDamZ] } [(exDamTry, exDamGot.take 300)] with
      | .ok (.next S) => decide (S.written.map (fun e => (e.1.seqId, e.2)) = [(2, [1, 2, 7])] ∧ S.cp = {} ∧
          S.queue.map (fun x => (x.seqId, x.offset, x.size)) = [(1, 100, 2), (2, 0, 3)])
      | _ => false) = true := by
  constructor <;> decide +kernel

/-- The hypotheses of `C110_resume_partial` are met by this connection, twice. -/
example : aRun exDamCfg { queue := [exBrkY, exDamZ] } [(exDamTry, exDamGot), (exDamTry, exDamGot)] = .ok .blocked ∨
    ∃ S, aRun exDamCfg { queue := [exBrkY, exDamZ] } [(exDamTry, exDamGot), (exDamTry, exDamGot)] = .ok (.next S) ∧
      ∀ e ∈ S.written, PlacedWrite [exBrkY, exDamZ] e := by
  have ht : exDamTry.OK := exBrkTry_ok _ _ _ (by
    intro s hs
    simp only [List.mem_cons, reduceCtorEq, BItem.size.injEq, List.not_mem_nil, or_false, false_or] at hs
    subst hs
    exact ⟨by decide, by decide⟩) (by decide)
  have := C110_resume_partial exDamCfg exDamCfg_ok rfl rfl [exBrkY, exDamZ] ?_ ?_ [(exDamTry, exDamGot), (exDamTry, exDamGot)] ?_
  · rcases this with h | ⟨S, h, hp, _⟩
    · exact .inl h
    · exact .inr ⟨S, h, hp⟩
  · intro x hx
    simp only [List.mem_cons, List.not_mem_nil, or_false] at hx
    rcases hx with rfl | rfl
    · exact ⟨by unfold exBrkY Source.details BlockDetails.WF; decide, by decide, by decide, by decide +kernel, by decide, by decide⟩
    · exact ⟨by unfold exDamZ exBrkX Source.details BlockDetails.WF; decide, by decide, by decide, by decide +kernel, by decide, by decide⟩
  · exact .cons (by intro y hy; rw [List.mem_singleton] at hy; subst hy; exact .inl (by decide)) (.cons (by simp) .nil)
  · intro t h
    simp only [List.mem_cons, List.not_mem_nil, or_false, or_self] at h
    subst h
    exact ⟨ht, exDam_arrives⟩

end Wdt
