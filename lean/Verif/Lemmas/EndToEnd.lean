import Verif.Model.EndToEnd
import Verif.Props.ReceiverFinish
import Verif.Props.History
/-
Invariants of a whole transfer, one port at a time.
-/
namespace Wdt

/-- Blocks among the sender's commands. -/
def upBlocks (l : List UCmd) : List WBlock :=
  l.filterMap fun m => match m with
    | .block b _ => some b
    | .done => none

@[simp] theorem upBlocks_nil : upBlocks [] = [] := rfl
@[simp] theorem upBlocks_block (b : WBlock) (n : Int) (l : List UCmd) : upBlocks (.block b n :: l) = b :: upBlocks l := rfl
@[simp] theorem upBlocks_done (l : List UCmd) : upBlocks (.done :: l) = upBlocks l := rfl
@[simp] theorem upBlocks_append (l m : List UCmd) : upBlocks (l ++ m) = upBlocks l ++ upBlocks m := by
  simp [upBlocks, List.filterMap_append]

/-- What the sender has not read at the receiver's end. -/
def Port.up (p : Port) : List UCmd := p.hd.getD []

/-- Blocks that the receiver has, or that are on their way to it. -/
def Port.have_ (p : Port) : List WBlock := p.counted ++ p.unver ++ upBlocks p.up

/-- Blocks that the sender thread has written or tried to write. -/
def gone (th : SThread) (p : Port) : List WBlock :=
  th.hist.history.map Source.wire ++ (if p.wrote.isSome then th.cur.toList.map Source.wire else [])

/-- Does the sender thread take nothing from the queue, as long as it gets no checkpoint? -/
def SPh.quiet : SPh → Bool
  | .awaitCmd | .gotDone | .lost | .awaitCp | .ended _ => true
  | _ => false

/-- Is the receiver thread between the sender's DONE and the end of this connection, without
having asked for more? -/
def RPhase.synced : RPhase → Bool
  | .toWait | .waiting | .found | .nothing | .decided | .sendGlobal | .sendDone => true
  | _ => false

/-- The sender thread has sent DONE and added nothing since, and everything it sent has arrived or
is on its way. -/
def Quiet (p : Port) (th : SThread) : Prop :=
  p.idle = true ∧ p.sph.quiet = true ∧ th.opening = none ∧ th.cur = none ∧ p.have_ = gone th p

/-- Invariant of a port: `r` is where its receiver thread is, `f` tells if that has added its checkpoint
and `cp` is this checkpoint. -/
structure PortInv (p : Port) (th : SThread) (r : RPhase) (f : Prop) (cp : Checkpoint) : Prop where
  use : th.hist.inUse = false → ∃ ok, p.sph = .ended ok
  busy : th.opening.isSome = true ∨ th.cur.isSome = true → p.sph = .sending
  wrote : p.wrote.isSome = true → th.cur.isSome = true
  start : p.sph = .start → p.hd = none ∧ p.more = 0 ∧ p.acc = false ∧ th.hist.history = [] ∧ p.counted = [] ∧ p.unver = [] ∧ p.idle = false ∧
    (r = .reading ∨ r = .failing ∨ r = .ended)
  send : p.sph = .sending ∨ (∃ l w, p.sph = .processing l w) → p.idle = false ∧ p.inbox = []
  idle : p.sph = .awaitCmd ∨ p.sph = .gotDone → p.idle = true
  away : p.sph = .start ∨ p.sph = .lost ∨ (∃ ok, p.sph = .ended ok) → p.att = false ∧ p.inbox = []
  only : 0 < p.more → p.sph = .lost ∨ p.sph = .awaitCp ∨ ∃ ok, p.sph = .ended ok
  conn : p.att = true → p.more = 0 → p.hd.isSome = true
  back : p.att = true → 0 < p.more → p.inbox = []
  fresh : p.att = true → p.more = 0 → p.sph = .awaitCp → p.hd = some []
  pre : p.have_ <+: gone th p
  sync : p.att = true → p.sph ≠ .awaitCp → p.have_ = gone th p
  done : .done ∈ p.up → Quiet p th ∧ (∃ l, p.hd = some (l ++ [.done]) ∧ .done ∉ l) ∧ (∀ m ∈ p.inbox, m = .wait) ∧
    (p.att = true → p.more = 0 → p.sph = .awaitCmd)
  wait : r.synced = true → Quiet p th ∧ p.up = [] ∧ (∀ m ∈ p.inbox, m = .wait ∨ m = .done ∧ r = .sendDone) ∧
    (p.att = true → p.more = 0 → p.sph = .awaitCmd ∨ p.sph = .gotDone ∧ r = .sendDone)
  closed : r = .accepting ∨ r = .failing → p.hd = none ∧ p.unver = [] ∧ p.acc = false
  fail : r = .failing → p.att = false ∧ p.more = 0
  failed : f → r = .ended ∧ p.hd = none ∧ p.unver = [] ∧ p.acc = false ∧ cp = p.cp
  loc : ∀ c, .localCp c ∈ p.inbox → p.sph = .awaitCp ∧ p.inbox = [.localCp c] ∧ c.numBlocks = p.counted.length ∧
    p.unver = [] ∧ p.up = [] ∧ p.more = 0
  err : ∀ l, .err l ∈ p.inbox → p.sph = .awaitCmd ∧ ∃ ws, p.inbox = ws ++ [.err l] ∧ ∀ m ∈ ws, m = .wait
  glob : th.hist.globalCp = true → f ∧ th.hist.history.map Source.wire = p.counted

theorem PortInv.init (cp : Checkpoint) : PortInv {} {} .reading False cp := by
  constructor <;> simp [RPhase.synced, Port.up, Port.have_, gone]

section local_
variable {p : Port} {th : SThread} {r : RPhase} {f : Prop} {cp : Checkpoint}


attribute [local grind] SPh.quiet RPhase.synced
attribute [local grind =] upBlocks_nil upBlocks_block upBlocks_done upBlocks_append

set_option hygiene false in
local macro "lopen" h:ident : tactic => `(tactic| (
  obtain ⟨a1, a2, a3, a4, a5, a6, a7, a8, a9, a10, a11, a12, a13, a14, a15, a16, a17, a18, a19, a20, a21⟩ := $h
  obtain ⟨sph, hd, acc, more, att, inbox, wrote, counted, unver, last, idle⟩ := p
  obtain ⟨⟨H, gc, na, lc, iu, st⟩, op, cur⟩ := th
  simp only [Port.up, Port.have_, gone, Quiet, Port.put, Port.reply, Port.leave, Port.drop, Port.shut, Port.cp] at *
  ))
local macro "lgo" : tactic => `(tactic| (constructor <;> simp only [Port.up, Port.have_, gone, Quiet, Port.cp] <;> first | assumption | grind))

theorem PortInv.connect1 (h : PortInv p th r f cp) (hp : p.sph = .start) (h1 : r ≠ .failing) (h2 : r ≠ .ended) :
    PortInv { p with sph := .sending, hd := some [], att := true } th r f cp := by
  lopen h; subst hp; lgo

theorem PortInv.connect2 (h : PortInv p th r f cp) (hp : p.sph = .lost) (h1 : r ≠ .failing) :
    PortInv { p with sph := .awaitCp, more := p.more + 1, att := true } th r f cp := by
  lopen h; subst hp; lgo

theorem PortInv.left (h : PortInv p th r f cp) (ph : SPh) (ho : th.opening = none) (hc : th.cur = none)
    (hu : (∃ ok, p.sph = .ended ok) → ∃ ok, ph = .ended ok) (hph : ph = .lost ∨ ∃ ok, ph = .ended ok) :
    PortInv (p.leave ph) th r f cp := by
  lopen h; lgo

theorem PortInv.pop (h : PortInv p th r f cp) (x : Source) (hp : p.sph = .sending) :
    PortInv p { th with opening := some x } r f cp := by
  lopen h; subst hp; lgo

theorem PortInv.openOk (h : PortInv p th r f cp) (x : Source) (ho : th.opening = some x) (hc : th.cur = none) (y : Source) :
    PortInv p { th with opening := none, cur := some y } r f cp := by
  lopen h; subst ho hc; lgo

theorem PortInv.openFail (h : PortInv p th r f cp) (x : Source) (ho : th.opening = some x) (hc : th.cur = none) :
    PortInv p { th with opening := none } r f cp := by
  lopen h; subst ho hc; lgo

theorem PortInv.write (h : PortInv p th r f cp) (x : Source) (n : Int) (hp : p.sph = .sending) (hc : th.cur = some x)
    (hw : p.wrote = none) : PortInv { p.put (.block x.wire n) with wrote := some n } th r f cp := by
  lopen h; subst hp hc hw
  cases att with
  | false => simp only [Bool.false_eq_true, if_false]; lgo
  | true =>
    cases hd with
    | none => grind
    | some u => simp only [if_true, Option.map_some]; lgo

/-- The block a thread was sending has joined its history. -/
theorem PortInv.sentOk (h : PortInv p th r f cp) (x x' : Source) (H' : Hist) (hc : th.cur = some x) (ho : th.opening = none)
    (hw : p.wrote.isSome = true) (hx : x'.wire = x.wire) (hh : H'.history = th.hist.history ++ [x']) (hu : H'.inUse = th.hist.inUse)
    (hg : th.hist.globalCp = false) (hg' : H'.globalCp = false) :
    PortInv { p with wrote := none } ⟨H', none, none⟩ r f cp := by
  lopen h; subst hc ho hg; lgo

theorem PortInv.sentFail (h : PortInv p th r f cp) (x x' : Source) (H' : Hist) (hc : th.cur = some x) (ho : th.opening = none)
    (hx : x'.wire = x.wire) (hh : H'.history = th.hist.history ++ [x']) (hu : H'.inUse = th.hist.inUse)
    (hg : th.hist.globalCp = false) (hg' : H'.globalCp = false) :
    PortInv (p.leave .lost) ⟨H', none, none⟩ r f cp := by
  lopen h; subst hc ho hg; lgo

theorem PortInv.sentGlobal (h : PortInv p th r f cp) (x : Source) (H' : Hist) (hc : th.cur = some x) (ho : th.opening = none)
    (hh : H'.history = th.hist.history) (hg : th.hist.globalCp = true) (hg' : H'.globalCp = true) :
    PortInv (p.leave (.ended false)) ⟨H', none, none⟩ r f cp := by
  lopen h; subst hc ho hg; lgo

theorem PortInv.sendDone (h : PortInv p th r f cp) (hp : p.sph = .sending) (hc : th.cur = none) (ho : th.opening = none) :
    PortInv { p.put .done with sph := .awaitCmd, idle := true } th r f cp := by
  lopen h; subst hp hc ho
  cases att with
  | false => simp only [Bool.false_eq_true, if_false]; lgo
  | true =>
    cases hd with
    | none => grind
    | some u => simp only [if_true, Option.map_some]; lgo

/-- Changes of the history that do not matter. -/
theorem PortInv.acked (h : PortInv p th r f cp) (H' : Hist) (hh : H'.history = th.hist.history) (hu : H'.inUse = th.hist.inUse)
    (hg : H'.globalCp = th.hist.globalCp) : PortInv p { th with hist := H' } r f cp := by
  lopen h; lgo

theorem PortInv.readCp (h : PortInv p th r f cp) (c : Checkpoint) (rest : List DCmd) (H' : Hist) (hp : p.sph = .awaitCp)
    (hi : p.inbox = .localCp c :: rest) (hh : H'.history = th.hist.history.take c.numBlocks.toNat)
    (hu : H'.inUse = th.hist.inUse) (hg : H'.globalCp = th.hist.globalCp) :
    PortInv { p with sph := .sending, inbox := rest, idle := false } { th with hist := H' } r f cp := by
  have hl := h.loc c (by simp [hi])
  have ht : H'.history.map Source.wire = p.counted := by
    have h1 : p.have_ = p.counted := by simp [Port.have_, hl.2.2.2.1, hl.2.2.2.2.1]
    have h2 := h.pre
    have h3 : gone th p = th.hist.history.map Source.wire := by
      unfold gone
      have : p.wrote.isSome = false := by
        cases hw : p.wrote.isSome with
        | false => rfl
        | true => have := h.busy (.inr (h.wrote hw)); simp [hp] at this
      simp [this]
    rw [h1, h3, List.prefix_iff_eq_take] at h2
    rw [hh, List.map_take, h2]
    simp [hl.2.2.1]
  lopen h; subst hp hi
  obtain ⟨-, b1, b2, b3, b4, b5⟩ := hl
  simp only [List.cons.injEq, true_and] at b1
  subst b1 b3 b5
  lgo

theorem PortInv.readWait (h : PortInv p th r f cp) (rest : List DCmd) (hp : p.sph = .awaitCmd) (hi : p.inbox = .wait :: rest) :
    PortInv { p with inbox := rest } th r f cp := by
  have he : ∀ l, .err l ∈ rest → ∃ ws, rest = ws ++ [.err l] ∧ ∀ m ∈ ws, m = .wait := by
    intro l hl
    obtain ⟨-, ws, h1, h2⟩ := h.err l (by simp [hi, hl])
    rw [hi] at h1
    cases ws with
    | nil => simp at h1
    | cons w ws =>
      simp only [List.cons_append, List.cons.injEq] at h1
      exact ⟨ws, h1.2, fun m hm => h2 m (by simp [hm])⟩
  have hl := h.loc
  simp only [hp, reduceCtorEq, false_and, imp_false, hi] at hl
  lopen h; subst hp hi; lgo

theorem PortInv.readErr (h : PortInv p th r f cp) (l : List (Nat × Checkpoint)) (rest : List DCmd) (hp : p.sph = .awaitCmd)
    (hi : p.inbox = .err l :: rest) :
    PortInv { p with sph := .processing l false, inbox := rest, idle := false } th r f cp := by
  have he : rest = [] := by
    obtain ⟨-, ws, h1, h2⟩ := h.err l (by simp [hi])
    rw [hi] at h1
    cases ws with
    | nil => simpa using h1
    | cons w ws =>
      simp only [List.cons_append, List.cons.injEq] at h1
      have := h2 w (by simp)
      rw [this] at h1; simp at h1
  subst he
  have hs := h.wait
  have hd' := h.done
  simp only [hi, List.mem_singleton, forall_eq, reduceCtorEq, false_and, or_false, and_false, imp_false] at hs hd'
  lopen h; subst hp hi; lgo

theorem PortInv.readDone (h : PortInv p th r f cp) (rest : List DCmd) (hp : p.sph = .awaitCmd) (hi : p.inbox = .done :: rest) :
    PortInv { p with sph := .gotDone, inbox := rest } th r f cp := by
  have he : ∀ l, .err l ∉ rest := by
    intro l hl
    obtain ⟨-, ws, h1, h2⟩ := h.err l (by simp [hi, hl])
    rw [hi] at h1
    cases ws with
    | nil => simp at h1
    | cons w ws =>
      simp only [List.cons_append, List.cons.injEq] at h1
      have := h2 w (by simp)
      rw [this] at h1; simp at h1
  have hsd : r.synced = true → r = .sendDone := fun hr => by
    have := (h.wait hr).2.2.1 .done (by simp [hi]); simpa using this
  have hnd : .done ∉ p.up := fun hu => by
    have := (h.done hu).2.2.1 .done (by simp [hi]); simp at this
  have hl := h.loc
  simp only [hp, reduceCtorEq, false_and, imp_false, hi] at hl
  lopen h; subst hp hi; lgo

theorem PortInv.process (h : PortInv p th r f cp) (l l' : List (Nat × Checkpoint)) (w w' : Bool) (hp : p.sph = .processing l w) :
    PortInv { p with sph := .processing l' w' } th r f cp := by
  lopen h; subst hp; lgo

theorem PortInv.errDone (h : PortInv p th r f cp) (l : List (Nat × Checkpoint)) (w : Bool) (hp : p.sph = .processing l w) :
    PortInv { p with sph := .sending } th r f cp := by
  lopen h; subst hp; lgo

theorem PortInv.global (h : PortInv p th r f cp) (hf : f) (H' : Hist) (hu : H'.inUse = th.hist.inUse)
    (hle : cp.numBlocks ≤ th.hist.history.length)
    (hh : H'.history = th.hist.history.take cp.numBlocks.toNat) : PortInv p { th with hist := H' } r f cp := by
  have hl := h.failed hf
  have ht : H'.history.map Source.wire = p.counted := by
    have h1 : p.have_ = p.counted := by simp [Port.have_, Port.up, hl.2.1, hl.2.2.1]
    have h2 := h.pre
    rw [h1] at h2
    unfold gone at h2
    have hn : cp.numBlocks = p.counted.length := by rw [hl.2.2.2.2]; rfl
    rw [List.prefix_iff_eq_take, List.take_append_of_le_length (by simp; omega)] at h2
    rw [hh, List.map_take, h2]
    simp [hn]
  lopen h
  obtain ⟨b0, b1, b2, b3, b4⟩ := hl
  subst b0 b1 b2 b3
  lgo

theorem PortInv.exit (h : PortInv p th r f cp) (ok : Bool) (hp : p.sph = .ended ok) (H' : Hist)
    (hh : H'.history = th.hist.history) (hg : H'.globalCp = th.hist.globalCp) : PortInv p { th with hist := H' } r f cp := by
  lopen h; subst hp; lgo

/-! The receiver. -/

theorem PortInv.accept1 (h : PortInv p th r f cp) (hr : r = .reading) (ha : p.acc = false) (hs : p.hd.isSome = true) :
    PortInv { p with acc := true } th r f cp := by
  lopen h; subst hr ha; lgo

theorem PortInv.accept1b (h : PortInv p th r f cp) (hr : r = .reading) (ha : p.acc = false) (hs : p.hd.isSome = false)
    (hm : 0 < p.more) : PortInv { p with hd := some [], more := p.more - 1, acc := true } th r f cp := by
  have hn : p.hd = none := by simpa using hs
  lopen h; subst hr ha hn; lgo

theorem PortInv.accept (h : PortInv p th r f cp) (hr : r = .accepting) (hm : 0 < p.more) :
    PortInv (({ p with hd := some [], more := p.more - 1, acc := true } : Port).reply (.localCp p.cp)) th .reading f cp := by
  lopen h; subst hr
  split <;> lgo

theorem PortInv.recvShape (h : PortInv p th r f cp) (b : WBlock) (n : Int) (rest : List UCmd)
    (hh : p.hd = some (.block b n :: rest)) :
    .done ∈ rest → ∃ l, some rest = some (l ++ [UCmd.done]) ∧ .done ∉ l := by
  intro hd
  obtain ⟨-, ⟨l, h1, h2⟩, -⟩ := h.done (by simp [Port.up, hh, hd])
  rw [hh] at h1
  cases l with
  | nil => simp at h1
  | cons w l =>
    simp only [Option.some.injEq, List.cons_append, List.cons.injEq] at h1
    exact ⟨l, by rw [h1.2], fun hm => h2 (by simp [hm])⟩

theorem PortInv.recv (h : PortInv p th r f cp) (hr : r = .reading) (b : WBlock) (n : Int) (rest : List UCmd)
    (hh : p.hd = some (.block b n :: rest)) (hu : p.unver = []) (l : Option (Int × Int × Int)) :
    PortInv { p with hd := some rest, last := l, counted := p.counted ++ [b] } th r f cp := by
  have hsh := h.recvShape b n rest hh
  have hle : p.counted ++ [b] ++ [] ++ upBlocks rest = p.have_ := by simp [Port.have_, Port.up, hh, hu]
  have hdm : UCmd.done ∈ rest → UCmd.done ∈ UCmd.block b n :: rest := fun h => by simp [h]
  lopen h; subst hr hh hu; simp only [Option.getD_some] at *; lgo

theorem PortInv.recvU (h : PortInv p th r f cp) (hr : r = .reading) (b : WBlock) (n : Int) (rest : List UCmd)
    (hh : p.hd = some (.block b n :: rest)) (l : Option (Int × Int × Int)) :
    PortInv { p with hd := some rest, last := l, unver := p.unver ++ [b] } th r f cp := by
  have hsh := h.recvShape b n rest hh
  have hle : p.counted ++ (p.unver ++ [b]) ++ upBlocks rest = p.have_ := by simp [Port.have_, Port.up, hh]
  have hdm : UCmd.done ∈ rest → UCmd.done ∈ UCmd.block b n :: rest := fun h => by simp [h]
  lopen h; subst hr hh; simp only [Option.getD_some] at *; lgo

theorem PortInv.pre1 (h : PortInv p th r f cp) : p.counted <+: gone th p :=
  ((List.prefix_append _ _).trans (List.prefix_append _ _)).trans h.pre

theorem PortInv.pre2 (h : PortInv p th r f cp) : p.counted ++ p.unver <+: gone th p :=
  (List.prefix_append _ _).trans h.pre

theorem PortInv.dropped (h : PortInv p th r f cp) (hr : r ≠ .ended) (hs : r.synced = true ∨ p.acc = true) (l : Option (Int × Int × Int)) :
    PortInv (p.drop l) th .accepting f cp := by
  have hpre := h.pre1
  lopen h; lgo

theorem PortInv.shutd (h : PortInv p th r f cp) (hr : r ≠ .ended) (r' : RPhase) (hr' : r' = .failing ∨ r' = .ended)
    (l : Option (Int × Int × Int)) : PortInv (p.shut l) th r' f cp := by
  have hpre := h.pre1
  lopen h; lgo

theorem PortInv.recvDone (h : PortInv p th r f cp) (hr : r = .reading) (rest : List UCmd) (hh : p.hd = some (.done :: rest)) :
    PortInv { p with hd := some rest } th .toWait f cp := by
  have he : rest = [] := by
    obtain ⟨-, ⟨l, h1, h2⟩, -⟩ := h.done (by simp [Port.up, hh])
    rw [hh] at h1
    cases l with
    | nil => simpa using h1
    | cons w l =>
      simp only [Option.some.injEq, List.cons_append, List.cons.injEq] at h1
      exact absurd (by simp [h1.1]) h2
  subst he
  have hdn := h.done (by simp [Port.up, hh])
  lopen h; subst hr hh; simp only [Option.getD_some, upBlocks_done, upBlocks_nil, List.append_nil] at *; lgo

theorem PortInv.verify (h : PortInv p th r f cp) (ha : p.acc = true) :
    PortInv { p with counted := p.counted ++ p.unver, unver := [] } th r f cp := by
  lopen h; subst ha; lgo

/-- A step within WAIT_FOR_FINISH_OR_NEW_CHECKPOINT. -/
theorem PortInv.phase (h : PortInv p th r f cp) (r' : RPhase) (hr : r.synced = true) (hd : r ≠ .sendDone) (hr' : r'.synced = true) :
    PortInv p th r' f cp := by
  lopen h; lgo

theorem PortInv.sendGlobal (h : PortInv p th r f cp) (hr : r = .sendGlobal) (l : List (Nat × Checkpoint)) :
    PortInv (p.reply (.err l)) th .reading f cp := by
  lopen h; subst hr; split <;> lgo

theorem PortInv.sendWait (h : PortInv p th r f cp) (hr : r = .waiting) : PortInv (p.reply .wait) th r f cp := by
  lopen h; subst hr; split <;> lgo

theorem PortInv.writeDone (h : PortInv p th r f cp) (hr : r = .sendDone) : PortInv (p.reply .done) th r f cp := by
  lopen h; subst hr; split <;> lgo

theorem PortInv.doneSent (h : PortInv p th r f cp) (hr : r = .sendDone) :
    PortInv { p with counted := p.counted ++ p.unver, unver := [] } th .ended f cp := by
  lopen h; subst hr; lgo

theorem PortInv.failed' (h : PortInv p th r f cp) (hr : r = .failing) : PortInv p th .ended True p.cp := by
  lopen h; subst hr; lgo

theorem PortInv.vanish (h : PortInv p th r f cp) (hs : p.acc = false) (hv : p.att = false ∨ 0 < p.more) :
    PortInv { p with hd := none } th r f cp := by
  have hpre := h.pre2
  lopen h; subst hs; lgo

theorem PortInv.vanishMore (h : PortInv p th r f cp) (hv : p.att = false ∨ 1 < p.more) :
    PortInv { p with more := p.more - 1 } th r f cp := by
  lopen h; lgo

end local_
end Wdt
