import Verif.Props.BrokenConn
import Verif.Lemmas.BrokenEnc
/-
C105: encrypted connections may break at any byte, again and again, and the transfer still completes.
-/
namespace Wdt

/-- An encryption that `WdtSocket` accepts. -/
structure BECfg.OK (E : BECfg) : Prop where
  type : E.encType = ENC_AES128_CTR ∨ E.encType = ENC_AES128_GCM
  T0 : 0 ≤ E.T
  T1 : E.T ≤ int32Max
  gcm : E.T > 0 → E.encType = ENC_AES128_GCM

/-- Buffers and vectors have their sizes, and no data of the stream is taken for one of its tags (see `NoEcho`). -/
structure ETry.OK (E : BECfg) (c : BCfg) (t : ETry) : Prop where
  base : t.base.OK
  cipher : CipherOK E.C t.ivs
  iv : t.iv.length = 16
  ebuf : t.ebuf.length = 23
  noEcho : E.T = 0 ∨ ∀ stream, t.base.stream c = .ok stream → NoEcho E.C t.ivs E.T E.I ⟨{ iv := t.iv }, 0⟩ stream

theorem BECfg.OK.num {E : BECfg} (h : E.OK) : 0 ≤ E.encType ∧ E.encType < 128 := by
  rcases h.type with h | h <;> rw [h] <;> exact ⟨by decide, by decide⟩

/-- What is written to the socket. -/
theorem wire_eq {E : BECfg} (hE : E.OK) {c : BCfg} {t : ETry} (ht : t.OK E c) {stream : Bytes} :
    t.wire E stream = .ok none ∨ t.wire E stream = .ok (some ((ENCRYPTION_CMD :: helloBytes E.encType t.iv E.T) ++
      (wire E.C t.ivs E.T E.I ⟨{ iv := t.iv }, 0⟩ stream).1)) := by
  unfold ETry.wire
  by_cases h : t.writes.flatten ≠ stream ∨ [] ∈ t.writes
  · rw [if_pos h]; exact .inl rfl
  · right
    rw [if_neg h]
    have hw : ∀ b ∈ t.writes, b ≠ [] := fun b hb hc => h (.inr (hc ▸ hb))
    have hfl : t.writes.flatten = stream := by
      by_cases hh : t.writes.flatten = stream
      · exact hh
      · exact absurd (.inl hh) h
    have e1 := encHello_bytes E.encType hE.num.1 hE.num.2 t.iv ht.iv E.T t.ebuf ht.ebuf
    have e2 := encWrites_wire (C := E.C) (ivs := t.ivs) (I := E.I) hE.T0 t.writes (EncW.fresh t.iv) hw (by simp [EncW.fresh])
    have e2' : encWrites E.C t.ivs E.T E.I t.writes { st := { iv := t.iv } } = _ := e2
    rw [e1, e2']
    simp only
    rw [hfl]
    simp [EncW.put, EncW.fresh, EncW.ref]

/-- One broken connection. -/
theorem eBreak_ok {E : BECfg} (hE : E.OK) {c : BCfg} (hc : c.OK) {Q : List Source} {S : BSys}
    (hi : BrkInv (c.strict E.tagged) Q S) {t : ETry} (ht : t.OK E c) {r : BRes} (h : eBreak E c S t = .ok r) :
    match r with
    | .next S' => BrkInv (c.strict E.tagged) Q S' ∧ ((c.strict E.tagged).st.enableChecksum = false → S'.bytes = S.bytes)
    | .refused S' => (∀ e ∈ S'.written, GoodWrite c Q e) ∧ (c.strict E.tagged).st.enableChecksum = false ∧ ∃ x ∈ Q, x.seqId = 0
    | .blocked => True := by
  unfold eBreak at h
  by_cases hp : (t.base.sources ++ t.base.rest).Perm S.queue
  · rw [if_neg (by simp [hp])] at h
    have hsd : ∀ y ∈ t.base.sources, Sendable c y := fun y hy => by
      obtain ⟨a1, a2, a3, a4, a5, a6⟩ := hi.send y (hp.subset (List.mem_append_left _ hy))
      exact ⟨a1, a2, a3, a4, a5, a6⟩
    obtain ⟨w1, w2⟩ := try_items_wf ht.base hsd
    have hcut := fun frag => receive_cut frag c.crc hc.crc c.ver c.hver c.rver hc.ver hc.hver hc.acc c.st hc.st hc.id hc.chunks
      hc.foot (t.base.items.map (BItem.sent c.src)) w1 w2 t.base.status t.base.numBlocks t.base.total ht.base.n ht.base.total
      t.base.buf t.base.hbuf t.base.rbuf ht.base.buf ht.base.hbuf
      ht.base.rbuf t.base.footer0 (t.base.items.length + 2) (by rw [List.length_map]; omega)
    have hfull := fun frag => C34_delivery_partial frag c.crc hc.crc c.ver c.hver c.rver hc.ver hc.hver hc.acc c.st hc.st hc.id hc.chunks
      hc.foot (t.base.items.map (BItem.sent c.src)) w1 w2 t.base.status t.base.numBlocks t.base.total ht.base.n ht.base.total
      t.base.buf t.base.hbuf t.base.rbuf ht.base.buf ht.base.hbuf
      ht.base.rbuf t.base.footer0 (t.base.items.length + 2) (by rw [List.length_map]; omega)
    obtain ⟨stream, e, _⟩ := hcut (fun _ => 0)
    have e' : t.base.stream c = .ok stream := e
    rw [e'] at h
    simp only at h
    rcases wire_eq hE ht (stream := stream) with hw | hw
    · rw [hw] at h
      cases h
      trivial
    rw [hw] at h
    simp only at h
    cases hrun : t.receive E c (((ENCRYPTION_CMD :: helloBytes E.encType t.iv E.T) ++
      (wire E.C t.ivs E.T E.I ⟨{ iv := t.iv }, 0⟩ stream).1).take t.base.arrive) with
    | error f => rw [hrun] at h; cases h
    | ok q =>
      obtain ⟨obs, o, s'⟩ := q
      rw [hrun] at h
      obtain ⟨P, cut, ha, hP⟩ := C98_nothing_else E.C E.encType t.junk t.io E.I _ c.crc c.st.transferId t.base.rbuf c.rver
        t.base.footer0 (t.base.items.length + 2) obs o s' hrun
      have hne : NoEcho E.C t.ivs E.T E.I ⟨{ iv := t.iv }, 0⟩ stream := by
        rcases ht.noEcho with h0 | h0
        · rw [h0]; exact noEcho_no_tags
        · exact h0 stream e'
      have hpre := accepts_sent ht.cipher hE.num.1 hE.num.2 ht.iv hE.T0 hE.T1 hne ha
      by_cases hl : P.length < stream.length
      · obtain ⟨stream', e2, _, hb⟩ := hcut cut
        rw [e] at e2
        cases e2
        obtain ⟨obs', k1, k2⟩ := hb P.length hl
        rw [List.prefix_iff_eq_take.1 hpre, k1] at hP
        cases hP
        simp only at h
        cases hbe : RcvCp.behind E.tagged c.st.enableChecksum t.verified S.cp obs with
        | none => rw [hbe] at h; cases h; trivial
        | some cp' =>
          rw [hbe] at h
          simp only at h
          have heff : ∃ done pend, CutEffect (c.strict E.tagged) (c.strict E.tagged).st.enableChecksum S.cp cp' t.base.sources
              (obs.filterMap RObs.write) done pend := by
            rcases k2 with ⟨rfl, _⟩ | ⟨obs', rfl, hcut, _⟩
            · have : cp' = S.cp := by
                unfold RcvCp.behind at hbe
                by_cases hh : (E.tagged && !c.st.enableChecksum) = true
                · rw [if_pos hh] at hbe
                  by_cases hv : (([] : List RObs).filter RObs.whole).length < t.verified
                  · rw [if_pos hv] at hbe; cases hbe
                  · rw [if_neg hv] at hbe
                    cases hbe
                    have : t.verified = 0 := by simpa using hv
                    rw [this]
                    rfl
                · rw [if_neg hh] at hbe; cases hbe; rfl
              subst this
              exact ⟨[], t.base.sources, rfl, rfl, .inl ⟨rfl, rfl⟩⟩
            · have hbe' : RcvCp.behind E.tagged c.st.enableChecksum t.verified S.cp obs' = some cp' := by
                rw [← hbe]
                rfl
              exact cut_behind c E.tagged t.verified t.base.items obs' S.cp cp' hcut hbe'
          obtain ⟨done, pend, heff⟩ := heff
          obtain ⟨⟨code, h', l⟩, hset⟩ := checkpoint_ok hi heff
          rw [hset] at h
          have hgood : code ≠ .invalid → BrkInv (c.strict E.tagged) Q ⟨h', cp', S.written ++ obs.filterMap RObs.write,
              t.base.rest ++ l.map Prod.snd⟩ ∧ ((c.strict E.tagged).st.enableChecksum = false →
              BSys.bytes ⟨h', cp', S.written ++ obs.filterMap RObs.write, t.base.rest ++ l.map Prod.snd⟩ = S.bytes) := by
            refine fun hcode => ⟨break_step hi hp heff hset hcode, fun hf => ?_⟩
            have := break_sum hi hp heff hset hcode hf
            unfold BSys.bytes
            simp only [List.map_append, List.sum_append] at this ⊢
            omega
          cases code with
          | ok => cases h; exact hgood (by simp)
          | noProgress => cases h; exact hgood (by simp)
          | invalid =>
            cases h
            obtain ⟨r1, x, hx, r2, _⟩ := refused_step hi hp heff hset
            obtain ⟨z, hz, _, _, hw⟩ := hi.origin x hx
            exact ⟨break_writes hi hp heff, r1, z, hz, hw.seqId.symm.trans r2⟩
      · have hPs : P = stream := hpre.eq_of_length_le (by omega)
        obtain ⟨stream', e2, hb⟩ := hfull cut
        rw [e] at e2
        cases e2
        rw [hPs, hb] at hP
        cases hP
        cases h
        trivial
  · rw [if_pos hp] at h
    cases h
    trivial

theorem xRun_ok {E : BECfg} (hE : E.OK) {c : BCfg} (hc : c.OK) {Q : List Source} : ∀ (ts : List ETry) (S : BSys),
    BrkInv (c.strict E.tagged) Q S → (∀ t ∈ ts, t.OK E c) → ∀ r, xRun E c S ts = .ok r →
    match r with
    | .next S' => BrkInv (c.strict E.tagged) Q S' ∧ ((c.strict E.tagged).st.enableChecksum = false → S'.bytes = S.bytes)
    | .refused S' => (∀ e ∈ S'.written, GoodWrite c Q e) ∧ (c.strict E.tagged).st.enableChecksum = false ∧ ∃ x ∈ Q, x.seqId = 0
    | .blocked => True := by
  intro ts
  induction ts with
  | nil => intro S hi _ r h; cases h; exact ⟨hi, fun _ => rfl⟩
  | cons t ts ih =>
    intro S hi ht r h
    unfold xRun at h
    cases hb : eBreak E c S t with
    | error e => rw [hb] at h; cases h
    | ok r0 =>
      rw [hb] at h
      have h2 := eBreak_ok hE hc hi (ht t List.mem_cons_self) hb
      cases r0 with
      | next S' =>
        have k2 := ih S' h2.1 (fun u hu => ht u (List.mem_cons_of_mem _ hu)) r h
        cases r with
        | next S'' => exact ⟨k2.1, fun hf => (k2.2 hf).trans (h2.2 hf)⟩
        | refused S'' => exact k2
        | blocked => trivial
      | refused S' => cases h; exact h2
      | blocked => cases h; trivial

/-- **C105** (partial: as in `C99_resume_partial` and `C97_delivery_partial`, and runs on which the receiver's socket code itself
does not fail).  A sender thread has sources of different files or different parts of files to
send over encrypted connections, with or without tags.  Connection after connection breaks, each after any
number of encrypted bytes, in the middle of settings, data, tags or new vectors, each with any of the sources that are still to be sent.
Then all that was ever written to files is
beginnings of what remained of the sources, with their contents and at their places, however many of the
blocks that arrived had been verified by a tag.  The sender refuses the receiver's checkpoint only without
tags, without checksums and if one file has the sequence id 0.  Otherwise one good connection completes
the transfer: all that is to be sent is written, every position of every source holds
the byte of the source, both sides agree on the number of blocks.  Without checksums and tags every byte
has been written exactly once. -/
theorem C105_resume_partial (E : BECfg) (hE : E.OK) (c : BCfg) (hc : c.OK) (Q : List Source) (hs : ∀ x ∈ Q, Sendable c x)
    (ha : Q.Pairwise ApartSrc) (ts : List ETry) (hts : ∀ t ∈ ts, t.OK E c) (r : BRes) (hr : xRun E c { queue := Q } ts = .ok r) :
    (∀ S, r = .next S ∨ r = .refused S → ∀ e ∈ S.written, GoodWrite c Q e) ∧
    (∀ S, r = .refused S → c.st.enableChecksum = false ∧ E.encType = ENC_AES128_CTR ∧ ∃ x ∈ Q, x.seqId = 0) ∧
    ∀ S, r = .next S → ∀ t : ETry, t.OK E c → t.base.sources.Perm S.queue → [] ∉ t.writes →
      t.base.stream c = .ok t.writes.flatten → ¬ TagAt E.T t.writes.flatten.length → ∀ frag : Nat → Nat, t.io = (fun k => some (frag k)) →
      ∃ S', eGood E c S t = .ok (.next S') ∧ (∀ e ∈ S'.written, GoodWrite c Q e) ∧ S'.queue = [] ∧
        S'.hist.history.length = S'.cp.numBlocks ∧ S'.hist.numAcked = S'.cp.numBlocks ∧
        (∀ x ∈ Q, (∃ e ∈ S'.written, e.1.fileName = x.name ∧ e.1.seqId = x.seqId ∧
            e.1.offset + e.2.length = x.offset + x.size) ∧
          ∀ p, x.offset ≤ p → p < x.offset + x.size →
            ∃ b, (c.src x.seqId)[p.toNat]? = some b ∧ contentAt S'.written x.seqId p = some b) ∧
        (c.st.enableChecksum = false → E.encType = ENC_AES128_CTR →
          (S'.written.map fun e => (e.2.length : Int)).sum = (Q.map Source.size).sum) := by
  have hs' : ∀ x ∈ Q, Sendable (c.strict E.tagged) x := fun x hx => by
    obtain ⟨a1, a2, a3, a4, a5, a6⟩ := hs x hx
    exact ⟨a1, a2, a3, a4, a5, a6⟩
  have hstrict : (c.strict E.tagged).st.enableChecksum = false ↔ c.st.enableChecksum = false ∧ E.encType = ENC_AES128_CTR := by
    show (c.st.enableChecksum || E.tagged) = false ↔ _
    rw [Bool.or_eq_false_iff]
    refine and_congr_right fun _ => ?_
    unfold BECfg.tagged
    rw [decide_eq_false_iff_not]
    rcases hE.type with h | h <;> rw [h] <;> decide
  have h2 := xRun_ok hE hc ts { queue := Q } (BrkInv.init hs' ha) hts r hr
  refine ⟨?_, ?_, ?_⟩
  · intro S hS
    rcases hS with rfl | rfl
    · exact h2.1.good
    · exact h2.1
  · rintro S rfl
    obtain ⟨a1, a2⟩ := hstrict.1 h2.2.1
    exact ⟨a1, a2, h2.2.2⟩
  · rintro S rfl t ht hp hne hfl hend frag hio
    obtain ⟨hi, hsum⟩ := h2
    have hsd : ∀ y ∈ t.base.sources, Sendable c y := fun y hy => by
      obtain ⟨a1, a2, a3, a4, a5, a6⟩ := hi.send y (hp.subset hy)
      exact ⟨a1, a2, a3, a4, a5, a6⟩
    obtain ⟨w1, w2⟩ := try_items_wf ht.base hsd
    obtain ⟨stream, e, hb⟩ := C97_delivery_partial E.C t.ivs ht.cipher E.encType hE.type t.iv ht.iv E.T E.I hE.T0 hE.T1 hE.gcm t.junk
      t.ebuf ht.ebuf c.crc hc.crc c.ver c.hver c.rver hc.ver hc.hver hc.acc c.st hc.st hc.id
      hc.chunks hc.foot (t.base.items.map (BItem.sent c.src)) w1 w2 t.base.status t.base.numBlocks t.base.total ht.base.n
      ht.base.total t.base.buf t.base.hbuf t.base.rbuf ht.base.buf
      ht.base.hbuf ht.base.rbuf t.base.footer0 (t.base.items.length + 2) (by rw [List.length_map]; omega)
    have e' : t.base.stream c = .ok stream := e
    rw [e'] at hfl
    have hfl := Except.ok.inj hfl
    obtain ⟨hello, w, e1, e2, hrun⟩ := hb t.writes (fun b hb hc => hne (hc ▸ hb)) hfl.symm (by rw [hfl]; exact hend)
    obtain ⟨s', hrun⟩ := hrun frag
    have hwire : t.wire E stream = .ok (some (hello ++ w.out)) := by
      unfold ETry.wire
      have e2' : encWrites E.C t.ivs E.T E.I t.writes { st := { iv := t.iv } } = .ok w := e2
      rw [if_neg (by simp [hfl, hne]), e1, e2']
    have hrec : t.receive E c (hello ++ w.out) = .ok (.settings (c.st.carried c.ver) ::
        (t.base.items.map (BItem.sent c.src)).flatMap (SItem.obs c.ver c.st.enableChecksum),
        .done t.base.status t.base.numBlocks (if c.ver ≥ 16 then some t.base.total else none), s') := by
      unfold ETry.receive
      rw [hio]
      exact hrun
    obtain ⟨cp', b1, b2⟩ := full_behind c E.tagged t.base.items S.cp
    obtain ⟨_, f2⟩ := full_effect c c.st.enableChecksum t.base.items S.cp
    have f2' : ((RObs.settings (c.st.carried c.ver) :: (t.base.items.map (BItem.sent c.src)).flatMap
        (SItem.obs c.ver c.st.enableChecksum)).filterMap RObs.write) = t.base.sources.map (wholeWrite c) := f2
    obtain ⟨a1, a2, a3⟩ := addSources_hist t.base.sources S.hist hi.noGlobal
    obtain ⟨g1, g2⟩ := good_end hs' hi hp
    unfold eGood
    rw [if_neg (by simp [hp]), e']
    simp only
    rw [hwire]
    simp only
    rw [hrec]
    simp only
    rw [b1, f2']
    refine ⟨_, rfl, g1, rfl, ?_, ?_, g2, ?_⟩
    · show ((t.base.sources.foldl (fun h s => (addSource h s).1) S.hist).history.length) = _
      rw [a1, List.length_append, hi.hlen]
      exact b2.symm
    · show ((t.base.sources.foldl (fun h s => (addSource h s).1) S.hist).history.length : Int) = ((cp'.numBlocks : Nat) : Int)
      rw [a1, List.length_append, hi.hlen, b2]
      rfl
    · intro hf ht2
      have hb := hsum (hstrict.2 ⟨hf, ht2⟩)
      unfold BSys.bytes at hb
      simp only [List.map_nil, List.sum_nil, Int.zero_add] at hb
      have hsz : ((t.base.sources.map (wholeWrite c)).map fun e => (e.2.length : Int)) = t.base.sources.map Source.size := by
        rw [List.map_map]
        apply List.map_congr_left
        intro y hy
        exact (hsd y hy).data_length
      dsimp only
      rw [List.map_append, List.sum_append, hsz, perm_sum_int (hp.map Source.size), hb]

/-! ### Cases -/

/-- A tag every 400 bytes; no checksums: this is the default of wdt but for the interval. -/
def exEncCfg : BECfg := ⟨toyCipher, ENC_AES128_GCM, 400, 0⟩

def exEncTry (items : List BItem) (rest : List Source) (p v : Nat) : ETry :=
  { base := exBrkTry items rest p
    iv := List.replicate 16 9
    ivs := toyIvs
    ebuf := List.replicate 23 0
    junk := 0
    io := fun _ => some 99
    writes := match (exBrkTry items rest p).stream (exBrkCfg false) with
      | .ok stream => [stream]
      | .error _ => []
    verified := v }

/-- Case: the connection breaks after 500 bytes, 23 of them settings of the encryption, 16 a tag; the first file has arrived,
the second not.  No tag was verified behind the first file: both are sent again. -/
example : brkView (xRun exEncCfg (exBrkCfg false) { queue := [exBrkY, exBrkX 1] }
      [exEncTry [.size 303, .file 0 exBrkY, .file 0 (exBrkX 1)] [] 500 0]) =
    some ⟨false, ⟨0, none⟩, [(2, 0, [1, 2, 3]), (1, 0, (List.range 300).map UInt8.ofNat)], [(1, 0, 300), (2, 0, 3)]⟩ := by
  decide +kernel

/-- Case: a tag was verified behind the first file. -/
example : brkView (xRun exEncCfg (exBrkCfg false) { queue := [exBrkY, exBrkX 1] }
      [exEncTry [.size 303, .file 0 exBrkY, .file 0 (exBrkX 1)] [] 450 1]) =
    some ⟨false, ⟨1, none⟩, [(2, 0, [1, 2, 3]), (1, 0, (List.range 300).map UInt8.ofNat)], [(1, 0, 300)]⟩ := by
  decide +kernel

theorem exEncCfg_ok : exEncCfg.OK where
  type := .inr rfl
  T0 := by decide
  T1 := by decide
  gcm _ := rfl

theorem exEnc_noEcho : NoEcho toyCipher toyIvs 400 0 ⟨{ iv := List.replicate 16 9 }, 0⟩
    (match (exBrkTry [.size 303, .file 0 exBrkY, .file 0 (exBrkX 1)] [] 0).stream (exBrkCfg false) with
      | .ok stream => stream | .error _ => []) := noEcho_of (by decide +kernel)

/-- The hypotheses can be met: no data of this stream is taken for one of its tags. -/
theorem exEncTry_ok (p v : Nat) :
    (exEncTry [.size 303, .file 0 exBrkY, .file 0 (exBrkX 1)] [] p v).OK exEncCfg (exBrkCfg false) where
  base := by
    refine exBrkTry_ok _ _ _ ?_ (by decide)
    intro s hs
    simp only [List.mem_cons, List.not_mem_nil, or_false, BItem.size.injEq, reduceCtorEq] at hs
    subst hs
    decide
  cipher := toy_ok
  iv := by show (List.replicate 16 _).length = 16; rw [List.length_replicate]
  ebuf := by show (List.replicate 23 _).length = 23; rw [List.length_replicate]
  noEcho := by
    right
    intro stream h
    have e : (match (exBrkTry [.size 303, .file 0 exBrkY, .file 0 (exBrkX 1)] [] p).stream (exBrkCfg false) with
      | .ok stream => stream | .error _ => []) = stream := by
      have h' : (exBrkTry [.size 303, .file 0 exBrkY, .file 0 (exBrkX 1)] [] p).stream (exBrkCfg false) = .ok stream := h
      rw [h']
    have e2 : (exBrkTry [.size 303, .file 0 exBrkY, .file 0 (exBrkX 1)] [] p).stream (exBrkCfg false) =
      (exBrkTry [.size 303, .file 0 exBrkY, .file 0 (exBrkX 1)] [] 0).stream (exBrkCfg false) := rfl
    rw [e2] at e
    rw [← e]
    exact exEnc_noEcho

/-- Case: whatever happened on one broken connection, a good one completes the transfer. -/
example (p v : Nat) (S : BSys)
    (h : xRun exEncCfg (exBrkCfg false) { queue := [exBrkY, exBrkX 1] }
      [exEncTry [.size 303, .file 0 exBrkY, .file 0 (exBrkX 1)] [] p v] = .ok (.next S)) :
    ∀ e ∈ S.written, GoodWrite (exBrkCfg false) [exBrkY, exBrkX 1] e := by
  refine (C105_resume_partial exEncCfg exEncCfg_ok (exBrkCfg false) (exBrkCfg_ok false) [exBrkY, exBrkX 1] ?_ ?_ _ ?_ _ h).1 S (.inl rfl)
  · intro x hx
    simp only [List.mem_cons, List.not_mem_nil, or_false] at hx
    rcases hx with rfl | rfl
    · exact exBrk_sendable false _ (.inr (.inr rfl))
    · exact exBrk_sendable false _ (.inl rfl)
  · simp [ApartSrc, exBrkX, exBrkY]
  · intro t ht
    simp only [List.mem_cons, List.not_mem_nil, or_false] at ht
    subst ht
    exact exEncTry_ok p v

end Wdt
