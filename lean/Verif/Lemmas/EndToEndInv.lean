import Verif.Lemmas.EndToEndSender
/-
Invariants of a whole transfer: what one port needs to know about the others.
-/
namespace Wdt

/-- What all ports share. -/
structure Ctx where
  cps : List Nat
  cpv : Nat → Checkpoint
  gcp : Nat → Bool
  use : Nat → Bool
  dec : Bool
  began : Bool
  refused : Bool
  silent : Bool
  landed : List Landed

/-- A thread has the checkpoint of its port and has exited. -/
def Ctx.handled (G : Ctx) (u : Nat) : Prop := G.gcp u = true ∧ G.use u = false

/-- Is this byte of the file with this sequence id at the receiver? -/
def hasByte (L : List Landed) (seq x : Int) : Prop := ∃ l ∈ L, l.seqId = seq ∧ l.lo ≤ x ∧ x < l.hi

/-- A checkpoint that reports only what is at the receiver. -/
def GoodCp (L : List Landed) (cp : Checkpoint) : Prop :=
  cp.hasSeqId = true ∧ 0 ≤ cp.numBlocks ∧ 0 ≤ cp.lastBlockReceivedBytes ∧
    ∀ x, cp.lastBlockOffset ≤ x → x < cp.lastBlockOffset + cp.lastBlockReceivedBytes → hasByte L cp.lastBlockSeqId x

theorem hasByte.mono {L L' : List Landed} (h : L ⊆ L') {s x : Int} (hb : hasByte L s x) : hasByte L' s x := by
  obtain ⟨l, h1, h2⟩ := hb
  exact ⟨l, h h1, h2⟩

theorem GoodCp.mono {L L' : List Landed} (h : L ⊆ L') {cp : Checkpoint} (hb : GoodCp L cp) : GoodCp L' cp :=
  ⟨hb.1, hb.2.1, hb.2.2.1, fun x h1 h2 => (hb.2.2.2 x h1 h2).mono h⟩

/-- Is the checkpoint of thread `u` on its way to the sender thread of this port, or has it not
handled it yet? -/
def Covers (p : Port) (u : Nat) : Prop :=
  (∃ l, .err l ∈ p.inbox ∧ u ∈ l.map Prod.fst) ∨ ∃ l w, p.sph = .processing l w ∧ u ∈ l.map Prod.fst

/-- Do the checkpoints in an ERR command belong to threads that have failed? -/
def Known (G : Ctx) (l : List (Nat × Checkpoint)) : Prop := ∀ x ∈ l, x.1 ∈ G.cps ∧ x.2 = G.cpv x.1

/-- Invariant of port `v`, whose sender thread has history `h` and whose receiver thread is `r`. -/
structure ThrInv (c : ECfg) (G : Ctx) (v : Nat) (p : Port) (h : Hist) (r : RThr) : Prop where
  unv : (c.tagged && !c.footer) = false → p.unver = []
  acc : r.phase.synced = true → p.acc = true
  acc2 : r.phase = .reading → p.acc = false → r.pending ≤ r.cpIdx
  pr1 : ∀ l w, p.sph = .processing l w → Known G l
  pr2 : ∀ l, .err l ∈ p.inbox → Known G l
  prw : G.refused = false → ∀ u cp l, p.sph = .processing ((u, cp) :: l) true → G.gcp u = true
  fin : G.dec = false → G.silent = false → r.mark = .finished → v ∈ G.cps
  dn : .done ∈ p.inbox ∨ p.sph = .gotDone ∨ p.sph = .ended true ∨ r.phase = .decided ∨ r.phase = .sendDone → G.dec = true
  e1 : G.refused = false → ∀ i u, G.cps[i]? = some u → i < r.cpIdx → G.handled u
  e2 : G.refused = false → r.phase = .reading → ∀ i u, G.cps[i]? = some u → i < r.pending →
    G.handled u ∨ (p.up = [] ∧ (p.att = true → p.more = 0 → Covers p u))
  s1 : ∀ b ∈ p.counted ++ p.unver, (⟨b.seqId, b.offset, b.offset + b.size⟩ : Landed) ∈ G.landed
  s2 : ∀ s o w, p.last = some (s, o, w) → 0 ≤ w ∧ (⟨s, o, o + w⟩ : Landed) ∈ G.landed
  s3 : ∀ cp, .localCp cp ∈ p.inbox → GoodCp G.landed cp
  s5 : ∀ cp, h.lastCp = some cp → GoodCp G.landed cp
  bg : G.began = false → p.idle = false ∧ h.globalCp = false ∧ ∀ l w, p.sph ≠ .processing l w

/-- What is shared only grows. -/
structure Ctx.Le (G G' : Ctx) : Prop where
  cps : G.cps <+: G'.cps
  cpv : ∀ u ∈ G.cps, G'.cpv u = G.cpv u
  gcp : ∀ u, G.gcp u = true → G'.gcp u = true
  use : ∀ u, G.use u = false → G'.use u = false
  dec : G.dec = true → G'.dec = true
  began : G.began = true → G'.began = true
  refused : G'.refused = false → G.refused = false
  silent : G'.silent = false → G.silent = false
  landed : G.landed ⊆ G'.landed

theorem Ctx.Le.refl (G : Ctx) : G.Le G :=
  ⟨List.prefix_refl _, fun _ _ => rfl, fun _ h => h, fun _ h => h, id, id, id, id, fun _ h => h⟩

theorem Ctx.Le.handled {G G' : Ctx} (h : G.Le G') {u : Nat} (hu : G.handled u) : G'.handled u :=
  ⟨h.gcp u hu.1, h.use u hu.2⟩

theorem prefix_get {α : Type} {l m : List α} (h : l <+: m) {i : Nat} {a : α} (hi : i < l.length) (hm : m[i]? = some a) :
    l[i]? = some a := by
  obtain ⟨t, rfl⟩ := h
  rwa [List.getElem?_append_left hi] at hm

theorem Known.mono {G G' : Ctx} (hle : G.Le G') {l : List (Nat × Checkpoint)} (h : Known G l) : Known G' l :=
  fun x hx => ⟨hle.cps.subset (h x hx).1, by rw [(h x hx).2, hle.cpv _ (h x hx).1]⟩

theorem ThrInv.mono {c : ECfg} {G G' : Ctx} {v : Nat} {p : Port} {h : Hist} {r : RThr} (hle : G.Le G')
    (h1 : r.cpIdx ≤ r.pending) (h2 : r.pending ≤ G.cps.length) (ht : ThrInv c G v p h r) : ThrInv c G' v p h r where
  unv := ht.unv
  acc := ht.acc
  acc2 := ht.acc2
  pr1 l w hl := (ht.pr1 l w hl).mono hle
  pr2 l hl := (ht.pr2 l hl).mono hle
  prw hr u cp l hl := hle.gcp _ (ht.prw (hle.refused hr) u cp l hl)
  fin hd hs hm := hle.cps.subset (ht.fin (by
    cases hx : G.dec with
    | false => rfl
    | true => rw [hle.dec hx] at hd; cases hd) (hle.silent hs) hm)
  dn hd := hle.dec (ht.dn hd)
  e1 hr i u hi hlt := hle.handled (ht.e1 (hle.refused hr) i u (prefix_get hle.cps (by omega) hi) hlt)
  e2 hr hp i u hi hlt := (ht.e2 (hle.refused hr) hp i u (prefix_get hle.cps (by omega) hi) hlt).imp hle.handled id
  s1 b hb := hle.landed (ht.s1 b hb)
  s2 s o w hw := ⟨(ht.s2 s o w hw).1, hle.landed (ht.s2 s o w hw).2⟩
  s3 cp hc := (ht.s3 cp hc).mono hle.landed
  s5 cp hc := (ht.s5 cp hc).mono hle.landed
  bg hb := ht.bg (by
    cases hx : G.began with
    | false => rfl
    | true => rw [hle.began hx] at hb; cases hb)

theorem ThrInv.cpGood {c : ECfg} {G : Ctx} {v : Nat} {p : Port} {h : Hist} {r : RThr} (ht : ThrInv c G v p h r) :
    GoodCp G.landed p.cp := by
  unfold Port.cp
  cases hl : p.last with
  | none => exact ⟨rfl, by simp, by simp, fun x h1 h2 => by simp at h1 h2; omega⟩
  | some q =>
    obtain ⟨s, o, w⟩ := q
    obtain ⟨h1, h2⟩ := ht.s2 s o w hl
    exact ⟨rfl, by simp, by simpa using h1, fun x h3 h4 => ⟨_, h2, by simp, by simpa using h3, by simpa using h4⟩⟩

section local_
variable {c : ECfg} {G : Ctx} {v : Nat} {p : Port} {th : SThread} {h : Hist} {r : RThr} {f : Prop} {cp : Checkpoint}

attribute [local grind] SPh.quiet RPhase.synced
attribute [local grind =] upBlocks_nil upBlocks_block upBlocks_done upBlocks_append

set_option hygiene false in
local macro "topen" h:ident : tactic => `(tactic| (
  obtain ⟨a1, a2, a3, a4, a5, a6, a7, a8, a9, a10, a11, a12, a13, a14, a15⟩ := $h
  obtain ⟨sph, hd, acc, more, att, inbox, wrote, counted, unver, last, idle⟩ := p
  simp only [Port.up, Port.put, Port.reply, Port.leave, Port.drop, Port.shut, Covers] at *
  ))
local macro "tgo" : tactic => `(tactic| (constructor <;> (try simp only [Port.up, Covers]) <;> first | assumption | grind))

theorem ThrInv.hist (ht : ThrInv c G v p h r) (h' : Hist) (hc : ∀ cp, h'.lastCp = some cp → GoodCp G.landed cp)
    (hg : G.began = false → h'.globalCp = false) : ThrInv c G v p h' r :=
  { ht with s5 := hc, bg := fun hb => ⟨(ht.bg hb).1, hg hb, (ht.bg hb).2.2⟩ }

theorem ThrInv.connect1 (ht : ThrInv c G v p h r) (hl : PortInv p th r.phase f cp) (hp : p.sph = .start) :
    ThrInv c G v { p with sph := .sending, hd := some [], att := true } h r := by
  have h1 := hl.start hp
  have h2 := (hl.away (.inl hp)).2
  topen ht; subst hp; tgo

theorem ThrInv.connect2 (ht : ThrInv c G v p h r) (hp : p.sph = .lost) :
    ThrInv c G v { p with sph := .awaitCp, more := p.more + 1, att := true } h r := by
  topen ht; subst hp; tgo

theorem ThrInv.left (ht : ThrInv c G v p h r) (ph : SPh) (hph : ph = .lost ∨ ph = .ended false ∨ ph = .ended true ∧ G.dec = true) :
    ThrInv c G v (p.leave ph) h r := by
  topen ht; tgo

theorem ThrInv.put (ht : ThrInv c G v p h r) (hl : PortInv p th r.phase f cp) (hp : p.sph = .sending) (m : UCmd) :
    ThrInv c G v (p.put m) h r := by
  have h1 := hl.only
  have h2 := hl.send (.inl hp)
  topen ht; subst hp
  cases att with
  | false => simp only [Bool.false_eq_true, if_false]; tgo
  | true => simp only [if_true]; tgo

theorem ThrInv.wrote (ht : ThrInv c G v p h r) (w : Option Int) : ThrInv c G v { p with wrote := w } h r := by
  topen ht; tgo

theorem ThrInv.idled (ht : ThrInv c G v p h r) (hl : PortInv p th r.phase f cp) (hp : p.sph = .sending) (hb : G.began = true) :
    ThrInv c G v { p with sph := .awaitCmd, idle := true } h r := by
  have h2 := hl.send (.inl hp)
  topen ht; subst hp; tgo

theorem ThrInv.readCp (ht : ThrInv c G v p h r) (hl : PortInv p th r.phase f cp) (k : Checkpoint) (rest : List DCmd)
    (hp : p.sph = .awaitCp) (hi : p.inbox = .localCp k :: rest) :
    ThrInv c G v { p with sph := .sending, inbox := rest, idle := false } h r := by
  have h1 := hl.loc k (by simp [hi])
  have h2 := hl.err
  topen ht; subst hp hi; tgo

theorem ThrInv.readWait (ht : ThrInv c G v p h r) (rest : List DCmd) (hp : p.sph = .awaitCmd) (hi : p.inbox = .wait :: rest) :
    ThrInv c G v { p with inbox := rest } h r := by
  topen ht; subst hp hi; tgo

theorem ThrInv.readErr (ht : ThrInv c G v p h r) (hl : PortInv p th r.phase f cp) (l : List (Nat × Checkpoint)) (rest : List DCmd)
    (hp : p.sph = .awaitCmd) (hi : p.inbox = .err l :: rest) :
    ThrInv c G v { p with sph := .processing l false, inbox := rest, idle := false } h r := by
  have he : rest = [] := by
    obtain ⟨-, ws, h1, h2⟩ := hl.err l (by simp [hi])
    rw [hi] at h1
    cases ws with
    | nil => simpa using h1
    | cons w ws =>
      simp only [List.cons_append, List.cons.injEq] at h1
      have := h2 w (by simp)
      rw [this] at h1; simp at h1
  subst he
  have hidle := hl.idle (.inl hp)
  topen ht; subst hp hi; tgo

theorem ThrInv.readDone (ht : ThrInv c G v p h r) (hl : PortInv p th r.phase f cp) (rest : List DCmd)
    (hp : p.sph = .awaitCmd) (hi : p.inbox = .done :: rest) :
    ThrInv c G v { p with sph := .gotDone, inbox := rest } h r := by
  have he : ∀ l, .err l ∉ p.inbox := by
    intro l hm
    obtain ⟨-, ws, h1, h2⟩ := hl.err l hm
    rw [hi] at h1
    cases ws with
    | nil => simp at h1
    | cons w ws =>
      simp only [List.cons_append, List.cons.injEq] at h1
      have := h2 w (by simp)
      rw [this] at h1; simp at h1
  topen ht; subst hp hi; tgo

theorem ThrInv.globalWait (ht : ThrInv c G v p h r) (u : Nat) (k : Checkpoint) (l : List (Nat × Checkpoint))
    (hp : p.sph = .processing ((u, k) :: l) false) (hg : G.refused = false → G.gcp u = true) :
    ThrInv c G v { p with sph := .processing ((u, k) :: l) true } h r := by
  topen ht; subst hp; tgo

theorem ThrInv.globalGo (ht : ThrInv c G v p h r) (u : Nat) (k : Checkpoint) (l : List (Nat × Checkpoint))
    (hp : p.sph = .processing ((u, k) :: l) true) (hu : G.use u = false) :
    ThrInv c G v { p with sph := .processing l false } h r := by
  have hh : G.refused = false → G.handled u := fun hr => ⟨ht.prw hr u k l hp, hu⟩
  have hk : Known G l := fun x hx => ht.pr1 _ _ hp x (by simp [hx])
  topen ht; subst hp; tgo

theorem ThrInv.errDone (ht : ThrInv c G v p h r) (hl : PortInv p th r.phase f cp) (w : Bool) (hp : p.sph = .processing [] w) :
    ThrInv c G v { p with sph := .sending } h r := by
  have h1 := hl.send (.inr ⟨_, _, hp⟩)
  topen ht; subst hp; tgo

/-! The receiver. -/

theorem ThrInv.accept1 (ht : ThrInv c G v p h r) : ThrInv c G v { p with acc := true } h r := by
  topen ht; tgo

theorem ThrInv.accept1b (ht : ThrInv c G v p h r) (hr : r.phase = .reading) (ha : p.acc = false) :
    ThrInv c G v { p with hd := some [], more := p.more - 1, acc := true } h r := by
  obtain ⟨ph, mk, ci, pe, nc⟩ := r
  topen ht; subst hr ha; tgo

theorem ThrInv.accept (ht : ThrInv c G v p h r) :
    ThrInv c G v (({ p with hd := some [], more := p.more - 1, acc := true } : Port).reply (.localCp p.cp)) h
      { r with pending := r.cpIdx, phase := .reading } := by
  have hg := ht.cpGood
  obtain ⟨ph, mk, ci, pe, nc⟩ := r
  generalize p.cp = k at *
  topen ht; split <;> tgo

/-- The receiver has closed the connection and is not reading. -/
theorem ThrInv.closed (ht : ThrInv c G v p h r) (p' : Port) (l : Option (Int × Int × Int))
    (hp' : p' = p.drop l ∨ p' = p.shut l)
    (hlast : ∀ s o w, l = some (s, o, w) → 0 ≤ w ∧ (⟨s, o, o + w⟩ : Landed) ∈ G.landed)
    (r' : RThr) (h1 : r'.phase = .accepting ∨ r'.phase = .failing ∨ r'.phase = .ended) (h2 : r'.cpIdx = r.cpIdx)
    (h3 : r'.mark ≠ .finished ∨ r'.mark = r.mark ∨ G.silent = true) : ThrInv c G v p' h r' := by
  obtain ⟨ph, mk, ci, pe, nc⟩ := r
  obtain ⟨ph', mk', ci', pe', nc'⟩ := r'
  topen ht; rcases hp' with rfl | rfl <;> tgo

theorem ThrInv.filed (ht : ThrInv c G v p h r) (m : UCmd) (rest : List UCmd) (hr : r.phase = .reading)
    (hh : p.hd = some (m :: rest)) : ThrInv c G v p h { r with cpIdx := r.pending } := by
  obtain ⟨ph, mk, ci, pe, nc⟩ := r
  topen ht; subst hh hr; tgo

theorem ThrInv.recv (ht : ThrInv c G v p h r) (hc : r.cpIdx = r.pending) (b : WBlock) (rest : Option (List UCmd))
    (hL : (⟨b.seqId, b.offset, b.offset + b.size⟩ : Landed) ∈ G.landed) :
    ThrInv c G v { p with hd := rest, last := none, counted := p.counted ++ [b] } h r := by
  obtain ⟨ph, mk, ci, pe, nc⟩ := r
  topen ht; subst hc; tgo

theorem ThrInv.recvU (ht : ThrInv c G v p h r) (hc : r.cpIdx = r.pending) (b : WBlock) (rest : Option (List UCmd))
    (hL : (⟨b.seqId, b.offset, b.offset + b.size⟩ : Landed) ∈ G.landed) (hu : (c.tagged && !c.footer) = true) :
    ThrInv c G v { p with hd := rest, last := none, unver := p.unver ++ [b] } h r := by
  obtain ⟨ph, mk, ci, pe, nc⟩ := r
  topen ht; subst hc; tgo

theorem ThrInv.recvDone (ht : ThrInv c G v p h r) (ha : p.acc = true) (rest : Option (List UCmd)) :
    ThrInv c G v { p with hd := rest } h { r with phase := .toWait } := by
  obtain ⟨ph, mk, ci, pe, nc⟩ := r
  topen ht; subst ha; tgo

theorem ThrInv.verify (ht : ThrInv c G v p h r) :
    ThrInv c G v { p with counted := p.counted ++ p.unver, unver := [] } h r := by
  topen ht; tgo

/-- A step of the receiver thread without a message. -/
theorem ThrInv.phase (ht : ThrInv c G v p h r) (r' : RThr) (h1 : r'.phase ≠ .reading) (h2 : r'.cpIdx = r.cpIdx)
    (h3 : r'.phase.synced = true → r.phase.synced = true)
    (h4 : r'.mark = .finished → r.mark = .finished ∨ G.dec = true ∨ v ∈ G.cps)
    (h5 : r'.phase = .decided ∨ r'.phase = .sendDone → G.dec = true) : ThrInv c G v p h r' := by
  obtain ⟨ph, mk, ci, pe, nc⟩ := r
  obtain ⟨ph', mk', ci', pe', nc'⟩ := r'
  topen ht; tgo

theorem ThrInv.sendGlobal (ht : ThrInv c G v p h r) (hl : PortInv p th r.phase f cp) (hr : r.phase = .sendGlobal)
    (l : List (Nat × Checkpoint)) (hk : Known G l)
    (hcov : ∀ i u, G.cps[i]? = some u → r.cpIdx ≤ i → i < r.cpIdx + r.newCps → u ∈ l.map Prod.fst) :
    ThrInv c G v (p.reply (.err l)) h { r with pending := r.cpIdx + r.newCps, phase := .reading } := by
  have h1 := (hl.wait (by rw [hr]; rfl)).2.1
  obtain ⟨ph, mk, ci, pe, nc⟩ := r
  topen ht; subst hr; split <;> tgo

theorem ThrInv.reply (ht : ThrInv c G v p h r) (m : DCmd) (hm : m = .wait ∨ m = .done ∧ G.dec = true) :
    ThrInv c G v (p.reply m) h r := by
  topen ht; split <;> tgo

theorem ThrInv.vanish (ht : ThrInv c G v p h r) : ThrInv c G v { p with hd := none } h r := by
  topen ht; tgo

theorem ThrInv.vanishMore (ht : ThrInv c G v p h r) (hv : p.att = false ∨ 1 < p.more) :
    ThrInv c G v { p with more := p.more - 1 } h r := by
  topen ht; tgo

theorem ThrInv.init (c : ECfg) (G : Ctx) (v : Nat) : ThrInv c G v {} {} {} := by
  constructor <;> simp [RPhase.synced, Port.up]

end local_
end Wdt
