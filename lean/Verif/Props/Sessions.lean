import Verif.Model.Sessions
import Verif.Lemmas.EndToEndSender
import Verif.Lemmas.EndToEndQueue
import Verif.Lemmas.EndToEndStop
import Verif.Props.EndToEndWait
import Verif.Props.ReceiverEnds
/-
C79: a receiver that serves many transfers serves each like its first.
-/
namespace Wdt

/-! ## When nothing is left over -/

theorem dRun_append {c : ECfg} {d d1 d2 : Daemon} {es1 es2 : List DEvent} (h1 : dRun c d es1 = some d1)
    (h2 : dRun c d1 es2 = some d2) : dRun c d (es1 ++ es2) = some d2 := by
  induction es1 generalizing d with
  | nil => cases h1; exact h2
  | cons e es ih =>
    simp only [dRun, List.cons_append] at h1 ⊢
    split at h1
    · rename_i d' hd; exact ih h1
    · cases h1

/-- Whenever the receiver goes on to its next session, a connection had been accepted in the
current one. -/
def AllStarted (c : ECfg) (d : Daemon) (es : List DEvent) : Prop :=
  ∀ es1 mb del es2 d1, es = es1 ++ .next mb del :: es2 → dRun c d es1 = some d1 → d1.started = true

/-- Whenever the receiver goes on to its next session, no thread has received blocks that were
never verified. -/
def NoneUnverified (c : ECfg) (d : Daemon) (es : List DEvent) : Prop :=
  ∀ es1 mb del es2 d1 t, es = es1 ++ .next mb del :: es2 → dRun c d es1 = some d1 → d1.stale t = []

theorem AllStarted.tail {c : ECfg} {d d' : Daemon} {e : DEvent} {es : List DEvent} (h : AllStarted c d (e :: es))
    (hd : dStep c d e = some d') : AllStarted c d' es := by
  intro es1 mb del es2 d1 he h1
  exact h (e :: es1) mb del es2 d1 (by rw [he]; rfl) (by simp only [dRun, hd]; exact h1)

theorem NoneUnverified.tail {c : ECfg} {d d' : Daemon} {e : DEvent} {es : List DEvent}
    (h : NoneUnverified c d (e :: es)) (hd : dStep c d e = some d') : NoneUnverified c d' es := by
  intro es1 mb del es2 d1 t he h1
  exact h (e :: es1) mb del es2 d1 t (by rw [he]; rfl) (by simp only [dRun, hd]; exact h1)

/-- If in every session before a connection was accepted and no received block was left
unverified, then whatever happens between this receiver and its current sender could have happened
between a new receiver and this sender: every state of the transfer is one that an execution of a
first transfer reaches. -/
theorem C79_independent_partial (c : ECfg) (mb : Int) (del : Bool) (es : List DEvent) (d : Daemon)
    (h : dRun c (Daemon.init c mb del) es = some d) (hs : AllStarted c (Daemon.init c mb del) es)
    (hv : NoneUnverified c (Daemon.init c mb del) es) :
    ∃ mb' del' es', eRun c (ESys.init c mb' del') es' = some d.sys := by
  have key : ∀ (es : List DEvent) (d0 : Daemon), dRun c d0 es = some d → AllStarted c d0 es → NoneUnverified c d0 es →
      (∃ mb' del' es', eRun c (ESys.init c mb' del') es' = some d0.sys) →
      ∃ mb' del' es', eRun c (ESys.init c mb' del') es' = some d.sys := by
    intro es
    induction es with
    | nil => intro d0 h _ _ h0; cases h; exact h0
    | cons e es ih =>
      intro d0 h hs hv h0
      simp only [dRun] at h
      split at h
      · rename_i d1 hd
        refine ih d1 h (hs.tail hd) (hv.tail hd) ?_
        cases e with
        | ev e =>
          simp only [dStep] at hd
          split at hd
          · rename_i S hS
            cases hd
            obtain ⟨mb', del', es', he⟩ := h0
            exact ⟨mb', del', es' ++ [e], eRun_append he (by simp [eRun, hS])⟩
          · cases hd
        | next mb' del' =>
          simp only [dStep] at hd
          split at hd
          · cases hd
            have h1 : d0.started = true := hs [] mb' del' es d0 rfl rfl
            have h2 : d0.stale = fun _ => [] := funext fun t => hv [] mb' del' es d0 t rfl rfl
            refine ⟨mb', del', [], ?_⟩
            simp [eRun, Daemon.nextSession, h1, h2, ESys.init]
          · cases hd
      · cases h
  exact key es _ h hs hv ⟨mb, del, [], rfl⟩

/-- When such a receiver goes on to its next session, all its threads have ended, and the session
before was either completed, all of every block of every file that could be opened has arrived, or
every thread of the receiver failed and left its checkpoint.  (As in C70: unless a global checkpoint
was refused or a thread ended without leaving its checkpoint.) -/
theorem C79_sessions_complete_partial (c : ECfg) (mb : Int) (del : Bool) (es : List DEvent) (d d' : Daemon) (mb' : Int) (del' : Bool)
    (h : dRun c (Daemon.init c mb del) es = some d) (hs : AllStarted c (Daemon.init c mb del) es)
    (hv : NoneUnverified c (Daemon.init c mb del) es) (hn : dStep c d (.next mb' del') = some d')
    (hr : d.sys.refused = false) (hsi : d.sys.silent = false) :
    (∀ t, t < c.n → (d.sys.rcv.th t).phase = .ended) ∧
    ((∀ t, t < c.n → t ∈ d.sys.rcv.cps) ∨
      ∀ b ∈ d.sys.snd.created, (∀ x ∈ d.sys.snd.q.failed, x.key ≠ b.key) →
        (∀ p, b.offset ≤ p → p < b.offset + b.size → ∃ l ∈ d.sys.landed, l.seqId = b.seqId ∧ l.lo ≤ p ∧ p < l.hi) ∧
        ∃ l ∈ d.sys.landed, l.seqId = b.seqId ∧ l.hi = b.offset + b.size) := by
  obtain ⟨mb1, del1, es1, h1⟩ := C79_independent_partial c mb del es d h hs hv
  have hg := (Good.init c mb1 del1).run h1
  have hend : ∀ t, t < c.n → (d.sys.rcv.th t).phase = .ended := by
    simp only [dStep] at hn
    split at hn
    · rename_i ha
      intro t ht
      simpa using List.all_eq_true.1 ha t (by simpa using ht)
    · cases hn
  refine ⟨hend, ?_⟩
  cases hd : d.sys.dec with
  | true =>
    refine .inr fun b hb hx => ?_
    obtain ⟨k1, k2⟩ := arrived_dec h1 hd hr hsi b hb
    exact ⟨fun p hp1 hp2 => (k1 p hp1 hp2).resolve_right fun ⟨x, hx1, hk⟩ => hx x hx1 hk.1,
      k2.resolve_right fun ⟨x, hx1, hk⟩ => hx x hx1 hk⟩
  | false =>
    refine .inl fun t ht => ?_
    obtain ⟨res, hres⟩ := hg.p.rr
    exact (hg.p.thr t).fin hd hsi (((RGood.run hres).mark t).2 (hend t ht))

/-- No block waits for verification. -/
def NoUnver (S : ESys) : Prop := ∀ t, (S.port t).unver = []

theorem NoUnver.setP {S : ESys} (h : NoUnver S) {t : Nat} {p : Port} (hp : p.unver = []) : NoUnver (S.setP t p) := by
  intro v
  simp only [ESys.setP, upd_apply]
  split
  · exact hp
  · exact h v

theorem NoUnver.snd {S S' : ESys} (h : NoUnver S) {e : SEvent} (hs : S.snd? e = some S') : NoUnver S' := by
  obtain ⟨s', -, rfl⟩ := snd?_some hs; exact h

theorem NoUnver.rcv {c : ECfg} {S S' : ESys} (h : NoUnver S) {e : REvent} (hs : S.rcv? c e = some S') : NoUnver S' := by
  obtain ⟨s', -, rfl⟩ := rcv?_some hs; exact h

theorem put_unver (p : Port) (m : UCmd) : (p.put m).unver = p.unver := by
  unfold Port.put; split <;> rfl

theorem reply_unver (p : Port) (m : DCmd) : (p.reply m).unver = p.unver := by
  unfold Port.reply; split <;> rfl

theorem NoUnver.began {S : ESys} (h : NoUnver S) {b : Bool} : NoUnver { S with began := b } := h

theorem NoUnver.stepS {c : ECfg} {S S' : ESys} {e : SEv} (h : eStepS c S e = some S') (hu : NoUnver S) : NoUnver S' := by
  cases e with
  | discover f => exact hu.snd h
  | finishDiscovery => exact hu.snd h
  | setPrev infos => simp only [eStepS] at h; split at h; cases h; exact hu.snd h
  | connect t =>
    simp only [eStepS] at h
    split at h
    · split at h <;> cases h
      · exact hu.setP (hu t)
      · exact hu.setP (hu t)
    · cases h
  | pop t x => simp only [eStepS] at h; split at h; exact hu.began.snd h; cases h
  | openOk t => exact hu.snd h
  | openFail t => exact hu.snd h
  | write t n =>
    simp only [eStepS] at h
    split at h
    · split at h <;> cases h
      exact hu.setP ((put_unver _ _).trans (hu t))
    · cases h
  | sent t o =>
    simp only [eStepS] at h
    split at h
    · cases o with
      | ok n =>
        dsimp only at h
        split at h
        · refine NoUnver.snd (NoUnver.setP hu ?_) h
          split <;> exact hu t
        · cases h
      | fail n =>
        dsimp only at h
        rw [if_pos rfl] at h
        refine NoUnver.snd (NoUnver.setP hu ?_) h
        split <;> exact hu t
    · cases h
  | sendDone t =>
    simp only [eStepS] at h
    split at h
    · split at h <;> cases h
      exact hu.setP ((put_unver _ _).trans (hu t))
    · cases h
  | lose t =>
    simp only [eStepS] at h
    split at h
    · split at h <;> cases h
      exact hu.setP (hu t)
    · cases h
  | readCp t =>
    simp only [eStepS] at h
    split at h
    · refine (hu.setP ?_).snd h
      split <;> exact hu t
    · cases h
  | readWait t => simp only [eStepS] at h; split at h; exact NoUnver.snd (NoUnver.setP hu (by exact hu t)) h; cases h
  | readErr t =>
    simp only [eStepS] at h; split at h
    · exact NoUnver.snd (NoUnver.setP hu (by exact hu t)) h
    · cases h
  | errLost t => simp only [eStepS] at h; split at h; exact (hu.setP (p := (S.port t).leave .lost) (hu t)).snd h; cases h
  | global t =>
    simp only [eStepS] at h; split at h
    · obtain ⟨s', -, rfl⟩ := snd?_some h
      exact hu.setP (p := { S.port t with sph := _ }) (hu t)
    · cases h
  | globalGo t =>
    simp only [eStepS] at h; split at h
    · split at h <;> cases h
      exact hu.setP (hu t)
    · cases h
  | errDone t => simp only [eStepS] at h; split at h <;> cases h; exact hu.setP (hu t)
  | readDone t =>
    simp only [eStepS] at h; split at h
    · exact NoUnver.snd (NoUnver.setP hu (by exact hu t)) h
    · cases h
  | doneEnd t ok => simp only [eStepS] at h; split at h <;> cases h; exact hu.setP (hu t)
  | giveUp t =>
    simp only [eStepS] at h; split at h
    · split at h <;> cases h
      exact hu.setP (hu t)
    · cases h
  | exit t => simp only [eStepS] at h; split at h; exact hu.snd h; cases h

/-- Without tags, or with checksums, no block waits for verification. -/
theorem NoUnver.stepR {c : ECfg} (hc : c.tagged = false ∨ c.footer = true) {S S' : ESys} {e : WEv}
    (h : eStepR c S e = some S') (hu : NoUnver S) : NoUnver S' := by
  have hc' : (c.tagged && !c.footer) = false := by rcases hc with hc | hc <;> simp [hc]
  have land : ∀ {t : Nat} {p : Port} {L : List Landed}, p.unver = [] → NoUnver { S.setP t p with landed := L } :=
    fun hp => hu.setP hp
  cases e with
  | accept1 t =>
    simp only [eStepR] at h
    split at h
    · split at h
      · cases h; exact hu.setP (hu t)
      · split at h <;> cases h
        exact hu.setP (hu t)
    · cases h
  | accept t ok =>
    simp only [eStepR] at h
    split at h
    · split at h
      · exact NoUnver.rcv (NoUnver.setP hu (by rw [reply_unver]; exact hu t)) h
      · cases h
    · exact (hu.setP (p := (S.port t).shut _) rfl).rcv h
  | recv t =>
    simp only [eStepR] at h
    split at h
    · split at h
      · refine (land ?_).rcv h
        rw [if_neg (by simp [hc'])]
        exact hu t
      · cases h
    · cases h
  | recvPart t w fatal =>
    simp only [eStepR] at h
    split at h
    · split at h
      · split at h
        · rename_i S1 hS1
          refine (NoUnver.rcv (land ?_) hS1).rcv h
          split <;> rfl
        · cases h
      · cases h
    · cases h
  | recvDone t =>
    simp only [eStepR] at h; split at h
    · exact NoUnver.rcv (NoUnver.setP hu (by exact hu t)) h
    · cases h
  | lost t reset fatal =>
    simp only [eStepR] at h; split at h
    · exact (hu.setP (p := (S.port t).shut _) rfl).rcv h
    · split at h
      · exact (hu.setP (p := (S.port t).drop _) rfl).rcv h
      · cases h
  | verify t => simp only [eStepR] at h; split at h <;> cases h; exact hu.setP rfl
  | markWaiting t => exact hu.rcv h
  | look t => exact hu.rcv h
  | resume t => exact hu.rcv h
  | query t =>
    simp only [eStepR] at h; split at h <;> cases h
    rename_i S1 hS1
    have := hu.rcv hS1
    exact this
  | finish t => exact hu.rcv h
  | sendGlobal t ok =>
    simp only [eStepR] at h
    refine (hu.setP ?_).rcv h
    split
    · exact (reply_unver _ _).trans (hu t)
    · rfl
  | sendWait t ok =>
    simp only [eStepR] at h
    split at h
    · split at h <;> cases h
      exact hu.setP ((reply_unver _ _).trans (hu t))
    · exact (hu.setP (p := (S.port t).drop _) rfl).rcv h
  | writeDone t =>
    simp only [eStepR] at h
    split at h <;> cases h
    exact hu.setP ((reply_unver _ _).trans (hu t))
  | doneSent t ok =>
    simp only [eStepR] at h
    refine (hu.setP ?_).rcv h
    split <;> rfl
  | failed t => obtain ⟨s', -, rfl⟩ := rcv?_some h; exact hu
  | silentEnd t =>
    obtain ⟨s', -, rfl⟩ := rcv?_some h
    exact hu.setP (p := (S.port t).shut _) rfl
  | vanish t => simp only [eStepR] at h; split at h <;> cases h; exact hu.setP (hu t)
  | vanishMore t => simp only [eStepR] at h; split at h <;> cases h; exact hu.setP (hu t)

theorem NoUnver.step {c : ECfg} (hc : c.tagged = false ∨ c.footer = true) {S S' : ESys} {e : EEvent}
    (h : eStep c S e = some S') (hu : NoUnver S) : NoUnver S' := by
  cases e with
  | s e => exact hu.stepS h
  | v e => exact hu.stepR hc h

/-- The second condition holds if the encryption has no tags or checksums are on. -/
theorem C79_none_unverified (c : ECfg) (hc : c.tagged = false ∨ c.footer = true) (mb : Int) (del : Bool)
    (es : List DEvent) : NoneUnverified c (Daemon.init c mb del) es := by
  have key : ∀ (es : List DEvent) (d d1 : Daemon), dRun c d es = some d1 → NoUnver d.sys → (∀ t, d.stale t = []) →
      ∀ t, d1.stale t = [] := by
    intro es
    induction es with
    | nil => intro d d1 h _ h2; cases h; exact h2
    | cons e es ih =>
      intro d d1 h h1 h2
      simp only [dRun] at h
      split at h
      · rename_i d' hd
        cases e with
        | ev e =>
          simp only [dStep] at hd
          split at hd
          · rename_i S hS
            cases hd
            refine ih _ d1 h (h1.step hc hS) fun t => ?_
            unfold staleAfter
            cases e.quits with
            | none => exact h2 t
            | some u =>
              simp only [upd_apply]
              split
              · rw [h2, h1]; rfl
              · exact h2 t
          · cases hd
        | next mb' del' =>
          simp only [dStep] at hd
          split at hd
          · cases hd
            exact ih _ d1 h (fun t => h2 t) (fun _ => rfl)
          · cases hd
      · cases h
  intro es1 mb' del' es2 d1 t _ h
  exact key es1 _ d1 h (fun _ => rfl) (fun _ => rfl) t

/-! ## When no sender came -/

/-- Sender thread `t` runs, holds no block. -/
def IdleThread (s : SSys) (t : Nat) : Prop :=
  ∃ th, s.threads[t]? = some th ∧ th.opening = none ∧ th.cur = none ∧ th.hist.inUse = true

theorem IdleThread.set {s s' : SSys} {t u : Nat} {th th' : SThread} (h : IdleThread s t) (hu : s.threads[u]? = some th)
    (hs : s'.threads = s.threads.set u th') (h1 : u = t → th'.opening = th.opening ∧ th'.cur = th.cur ∧
      th'.hist.inUse = th.hist.inUse) : IdleThread s' t := by
  obtain ⟨x, hx, a, b, c⟩ := h
  by_cases hut : u = t
  · subst hut
    have hxe : x = th := by rw [hu] at hx; cases hx; rfl
    subst hxe
    obtain ⟨e1, e2, e3⟩ := h1 rfl
    refine ⟨th', ?_, e1.trans a, e2.trans b, e3.trans c⟩
    rw [hs, List.getElem?_set]
    have hl : u < s.threads.length := by rw [List.getElem?_eq_some_iff] at hu; exact hu.1
    simp [hl]
  · refine ⟨x, ?_, a, b, c⟩
    rw [hs, List.getElem?_set, if_neg hut]; exact hx

theorem IdleThread.step {s s' : SSys} {e : SEvent} {t : Nat} (h : IdleThread s t) (hs : sStep s e = .ok s')
    (h1 : ∀ x, e ≠ .pop t x) (h2 : e ≠ .exit t) : IdleThread s' t := by
  have same : s'.threads = s.threads → IdleThread s' t := by
    rintro he
    obtain ⟨th, hx, r⟩ := h
    exact ⟨th, by rw [he]; exact hx, r⟩
  have cp : ∀ {u : Nat} {th : SThread} {k : Checkpoint} {g : Bool}, s.threads[u]? = some th →
      applyCp s u th (setCheckpoint th.hist k g) = .ok s' → IdleThread s' t := by
    intro u th k g hu hg
    obtain ⟨H', l, e, -, hi, -⟩ := applyCp_shape hg
    exact h.set hu (th' := { th with hist := H' }) (by rw [e]; rfl) fun _ => ⟨rfl, rfl, hi⟩
  cases e with
  | discover f =>
    simp only [sStep] at hs
    split at hs
    · cases hs
    · split at hs
      · cases hs
      · cases hs; exact same rfl
  | finishDiscovery =>
    simp only [sStep] at hs
    split at hs
    · cases hs
    · cases hs; exact same rfl
  | setPrev infos =>
    simp only [sStep] at hs
    split at hs
    · cases hs
    · cases hs; exact same rfl
  | pop u x =>
    have hne : u ≠ t := fun he => h1 x (by rw [he])
    obtain ⟨th, hu, -, -, -, -, rfl⟩ := sStep_pop hs
    exact h.set hu rfl fun he => absurd he hne
  | openOk u =>
    obtain ⟨th, x, hu, ho, -, rfl⟩ := sStep_openOk hs
    refine h.set hu rfl fun he => ?_
    subst he
    obtain ⟨y, hy, a, -⟩ := h
    rw [hu] at hy; cases hy; rw [ho] at a; cases a
  | openFail u =>
    obtain ⟨th, x, hu, ho, -, rfl⟩ := sStep_openFail hs
    refine h.set hu rfl fun he => ?_
    subst he
    obtain ⟨y, hy, a, -⟩ := h
    rw [hu] at hy; cases hy; rw [ho] at a; cases a
  | sent u o =>
    simp only [sStep] at hs
    split at hs
    · rename_i h' x hu
      have := giveBack_ok hs
      refine h.set hu (by rw [this]) fun he => ?_
      subst he
      obtain ⟨y, hy, -, a, -⟩ := h
      rw [hu] at hy; cases hy; cases a
    · cases hs
  | localCp u k =>
    simp only [sStep] at hs
    split at hs
    · rename_i th hu
      split at hs
      · cases hs
      · exact cp hu hs
    · cases hs
  | globalCp u k =>
    simp only [sStep] at hs
    split at hs
    · rename_i th hu; exact cp hu hs
    · cases hs; exact h
  | markAll u =>
    simp only [sStep] at hs
    split at hs
    · rename_i th hu; cases hs
      exact h.set hu rfl fun _ => ⟨rfl, rfl, rfl⟩
    · cases hs
  | returnUnacked u =>
    simp only [sStep] at hs
    split at hs
    · rename_i th hu
      exact cp hu hs
    · cases hs
  | exit u =>
    have hne : u ≠ t := fun he => h2 (by rw [he])
    simp only [sStep] at hs
    split at hs
    · rename_i th hu
      split at hs
      · cases hs
      · cases hs; exact h.set hu rfl fun he => absurd he hne
    · cases hs

/-- Sender thread `t` waits for its own end (ThreadTransferHistory.cpp:58-65 with its own history). -/
def WaitsForSelf (S : ESys) (t : Nat) : Prop :=
  (∃ cp l, (S.port t).sph = .processing ((t, cp) :: l) true) ∧ IdleThread S.snd t

theorem IdleThread.not {s : SSys} {t : Nat} {h : Hist} {x : Source} (hi : IdleThread s t)
    (hx : s.threads[t]? = some ⟨h, none, some x⟩) : False := by
  obtain ⟨y, hy, -, a, -⟩ := hi
  rw [hx] at hy; cases hy; cases a

theorem WaitsForSelf.other {S : ESys} {t u : Nat} {p : Port} (h : WaitsForSelf S t) (hu : u ≠ t) :
    WaitsForSelf (S.setP u p) t := by
  refine ⟨?_, h.2⟩
  simp only [ESys.setP, upd_apply, if_neg (Ne.symm hu)]
  exact h.1

theorem WaitsForSelf.snd {S S' : ESys} {t : Nat} {e : SEvent} (h : WaitsForSelf S t) (hs : S.snd? e = some S')
    (h1 : ∀ x, e ≠ .pop t x) (h2 : e ≠ .exit t) : WaitsForSelf S' t := by
  obtain ⟨s', hs', rfl⟩ := snd?_some hs
  exact ⟨h.1, h.2.step hs' h1 h2⟩

theorem WaitsForSelf.stepS {c : ECfg} {S S' : ESys} {t : Nat} {e : SEv} (hw : WaitsForSelf S t)
    (h : eStepS c S e = some S') : WaitsForSelf S' t := by
  obtain ⟨cp, l, hp⟩ := hw.1
  cases e with
  | discover f => exact hw.snd h (by simp) (by simp)
  | finishDiscovery => exact hw.snd h (by simp) (by simp)
  | setPrev infos => simp only [eStepS] at h; split at h; cases h; exact hw.snd h (by simp) (by simp)
  | openOk u => exact hw.snd h (by simp) (by simp)
  | openFail u => exact hw.snd h (by simp) (by simp)
  | connect u =>
    by_cases hu : u = t
    · subst hu; simp [eStepS, hp] at h
    · simp only [eStepS] at h
      split at h
      · split at h <;> cases h <;> exact hw.other hu
      · cases h
  | pop u x =>
    by_cases hu : u = t
    · subst hu; simp [eStepS, hp] at h
    · simp only [eStepS] at h
      split at h
      · exact WaitsForSelf.snd (S := { S with began := true }) hw h (by simpa using hu) (by simp)
      · cases h
  | write u n =>
    by_cases hu : u = t
    · subst hu
      simp only [eStepS] at h
      split at h
      · rename_i hx; exact (hw.2.not hx).elim
      · cases h
    · simp only [eStepS] at h
      split at h
      · split at h <;> cases h; exact hw.other hu
      · cases h
  | sent u o =>
    simp only [eStepS] at h
    split at h
    · rename_i hx
      have hu : u ≠ t := fun he => by subst he; exact hw.2.not hx
      cases o with
      | ok n =>
        dsimp only at h
        split at h
        · exact (hw.other hu).snd h (by simp) (by simp)
        · cases h
      | fail n =>
        dsimp only at h
        rw [if_pos rfl] at h
        exact (hw.other hu).snd h (by simp) (by simp)
    · cases h
  | sendDone u =>
    by_cases hu : u = t
    · subst hu
      simp only [eStepS, hp] at h
      split at h <;> simp at h
    · simp only [eStepS] at h
      split at h
      · split at h <;> cases h; exact hw.other hu
      · cases h
  | lose u =>
    by_cases hu : u = t
    · subst hu
      simp only [eStepS, hp] at h
      split at h <;> simp at h
    · simp only [eStepS] at h
      split at h
      · split at h <;> cases h; exact hw.other hu
      · cases h
  | readCp u =>
    by_cases hu : u = t
    · subst hu; simp [eStepS, hp] at h
    · simp only [eStepS] at h
      split at h
      · exact (hw.other hu).snd h (by simp) (by simp)
      · cases h
  | readWait u =>
    by_cases hu : u = t
    · subst hu; simp [eStepS, hp] at h
    · simp only [eStepS] at h
      split at h
      · exact (hw.other hu).snd h (by simp) (by simp)
      · cases h
  | readErr u =>
    by_cases hu : u = t
    · subst hu; simp [eStepS, hp] at h
    · simp only [eStepS] at h
      split at h
      · exact (hw.other hu).snd h (by simp) (by simp)
      · cases h
  | errLost u =>
    by_cases hu : u = t
    · subst hu; simp [eStepS, hp] at h
    · simp only [eStepS] at h
      split at h
      · exact (hw.other hu).snd h (by simp) (by simp)
      · cases h
  | global u =>
    by_cases hu : u = t
    · subst hu; simp [eStepS, hp] at h
    · simp only [eStepS] at h
      split at h
      · obtain ⟨s', hs', rfl⟩ := snd?_some h
        have := WaitsForSelf.other (p := { S.port u with sph := .lost }) hw hu
        refine ⟨?_, hw.2.step hs' (by simp) (by simp)⟩
        simp only [ESys.setP, upd_apply, if_neg (Ne.symm hu)]
        exact hw.1
      · cases h
  | globalGo u =>
    by_cases hu : u = t
    · subst hu
      obtain ⟨th, h1, -, -, h2⟩ := hw.2
      simp [eStepS, hp, ESys.hist, List.getD_eq_getElem?_getD, h1, h2] at h
    · simp only [eStepS] at h
      split at h
      · split at h <;> cases h; exact hw.other hu
      · cases h
  | errDone u =>
    by_cases hu : u = t
    · subst hu; simp [eStepS, hp] at h
    · simp only [eStepS] at h
      split at h <;> cases h; exact hw.other hu
  | readDone u =>
    by_cases hu : u = t
    · subst hu; simp [eStepS, hp] at h
    · simp only [eStepS] at h
      split at h
      · exact (hw.other hu).snd h (by simp) (by simp)
      · cases h
  | doneEnd u ok =>
    by_cases hu : u = t
    · subst hu; simp [eStepS, hp] at h
    · simp only [eStepS] at h
      split at h <;> cases h; exact hw.other hu
  | giveUp u =>
    by_cases hu : u = t
    · subst hu
      simp only [eStepS, hp] at h
      split at h <;> simp at h
    · simp only [eStepS] at h
      split at h
      · split at h <;> cases h; exact hw.other hu
      · cases h
  | exit u =>
    by_cases hu : u = t
    · subst hu; simp [eStepS, hp] at h
    · simp only [eStepS] at h
      split at h
      · exact hw.snd h (by simp) (by simpa using hu)
      · cases h

/-- A sender thread that has been sent a global checkpoint of its own port waits for itself and
does so whatever happens afterwards: no message, error, timeout or abort ends it. -/
theorem C79_waits_for_ever {c : ECfg} {es : List EEvent} {S S' : ESys} {t : Nat} (hw : WaitsForSelf S t)
    (h : eRun c S es = some S') : WaitsForSelf S' t := by
  induction es generalizing S with
  | nil => cases h; exact hw
  | cons e es ih =>
    simp only [eRun] at h
    split at h
    · rename_i S1 h1
      refine ih ?_ h
      cases e with
      | s e => exact hw.stepS h1
      | v e =>
        have fr := eStepR_frame h1
        refine ⟨?_, ?_⟩
        · rw [(fr.port t).1]; exact hw.1
        · rw [fr.snd]; exact hw.2
    · cases h

/-- Steps of one session. -/
def inSession (l : List EEvent) : List DEvent := l.map .ev

/-- Session 1: nobody connects and the threads stop trying to accept (ReceiverThread.cpp:152-159).
Session 2: a sender with one file connects, sends it and says that it is done; the receiver
answers with the checkpoints of session 1. -/
def exIdle : List DEvent :=
  inSession [.v (.lost 0 false true), .v (.failed 0)] ++ [.next 0 false] ++
  inSession ([.s (.discover ⟨[97], 10⟩), .s .finishDiscovery, .s (.connect 0), .v (.accept1 0),
    .s (.pop 0 (exSrc 97 1 10)), .s (.openOk 0), .s (.write 0 10), .s (.sent 0 (.ok 5)), .v (.recv 0)] ++ exErr)

/-- If no sender comes before the receiver's threads give up accepting, the checkpoints that they
then record stay and are sent to the sender of the next transfer.  All its data has arrived, no
connection has failed, and yet it waits for itself for ever. -/
theorem C79_idle_violated : ∃ d, dRun { n := 1 } (Daemon.init { n := 1 } 0 false) exIdle = some d ∧
    d.sys.landed = [⟨1, 0, 10⟩] ∧
    ∀ es S, eRun { n := 1 } d.sys es = some S → WaitsForSelf S 0 := by
  have h : (match dRun { n := 1 } (Daemon.init { n := 1 } 0 false) exIdle with
      | some d => decide (d.sys.landed = [⟨1, 0, 10⟩] ∧ (d.sys.port 0).sph = .processing [(0, d.sys.cpv 0)] true ∧
          (d.sys.snd.threads[0]?.map fun th => (th.opening.isNone, th.cur.isNone, th.hist.inUse)) = some (true, true, true))
      | none => false) = true := by decide +kernel
  split at h
  · rename_i d hd
    obtain ⟨h1, h2, h3⟩ := of_decide_eq_true h
    refine ⟨d, hd, h1, fun es S hS => C79_waits_for_ever ⟨⟨_, _, h2⟩, ?_⟩ hS⟩
    cases ht : d.sys.snd.threads[0]? with
    | none => rw [ht] at h3; cases h3
    | some th =>
      rw [ht] at h3
      simp only [Option.map_some, Option.some.injEq, Prod.mk.injEq, Option.isNone_iff_eq_none] at h3
      exact ⟨th, ht, h3⟩
  · cases h

/-! ## When received blocks were not verified -/

/-- Session 1, encryption with tags: a block arrives, and before a tag verifies it the thread fails
for another reason, for example because it cannot write the next file.  Session 2: file "b"
arrives and is verified; file "c" is written by the sender but the connection breaks before any of
it arrives. -/
def exStale : List DEvent :=
  inSession [.s (.discover ⟨[97], 10⟩), .s .finishDiscovery, .s (.connect 0), .v (.accept1 0),
    .s (.pop 0 (exSrc 97 1 10)), .s (.openOk 0), .s (.write 0 10), .s (.sent 0 (.ok 5)), .v (.recv 0),
    .v (.lost 0 false true), .v (.failed 0)] ++ [.next 0 false] ++
  inSession ([.s (.discover ⟨[98], 7⟩), .s (.discover ⟨[99], 5⟩), .s .finishDiscovery, .s (.connect 0), .v (.accept1 0),
    .s (.pop 0 (exSrc 98 1 7)), .s (.openOk 0), .s (.write 0 7), .s (.sent 0 (.ok 5)), .v (.recv 0), .v (.verify 0),
    .s (.pop 0 (exSrc 99 2 5)), .s (.openOk 0), .s (.write 0 5), .s (.sent 0 (.ok 5)), .v (.lost 0 true false),
    .s (.lose 0), .s (.connect 0), .v (.accept 0 true), .s (.readCp 0)] ++ exWrapUp)

/-- Blocks that an earlier session left unverified are counted in the checkpoints of the next one.
The sender then takes a block for received that never arrived: the transfer ends with success on
all threads, no block is reported as failed, and file "c" (sequence id 2) is not there. -/
theorem C79_unverified_violated : ∃ d, dRun { n := 1, tagged := true } (Daemon.init { n := 1, tagged := true } 0 false)
      exStale = some d ∧ d.sys.landed = [⟨1, 0, 7⟩] ∧ (d.sys.port 0).sph = .ended true ∧ d.sys.snd.q.failed = [] ∧
      d.sys.snd.q.queue = [] ∧ d.sys.refused = false ∧ d.sys.silent = false ∧
      (senderReport (exInput 1 d.sys)).errorCode = eOK := by
  have h : (match dRun { n := 1, tagged := true } (Daemon.init { n := 1, tagged := true } 0 false) exStale with
      | some d => decide (d.sys.landed = [⟨1, 0, 7⟩] ∧ (d.sys.port 0).sph = .ended true ∧ d.sys.snd.q.failed = [] ∧
          d.sys.snd.q.queue = [] ∧ d.sys.refused = false ∧ d.sys.silent = false ∧
          (senderReport (exInput 1 d.sys)).errorCode = eOK)
      | none => false) = true := by decide +kernel
  split at h
  · rename_i d hd
    exact ⟨d, hd, of_decide_eq_true h⟩
  · cases h

/-! ## A case for the positive theorems -/

/-- `AllStarted`, computed. -/
def allStarted (c : ECfg) : Daemon → List DEvent → Bool
  | _, [] => true
  | d, e :: es => (match e with | .next _ _ => d.started | .ev _ => true) &&
    match dStep c d e with
    | some d' => allStarted c d' es
    | none => true

theorem allStarted_sound {c : ECfg} {es : List DEvent} : ∀ {d : Daemon}, allStarted c d es = true → AllStarted c d es := by
  induction es with
  | nil => intro d _ es1 mb del es2 d1 he; simp at he
  | cons e es ih =>
    intro d h es1 mb del es2 d1 he h1
    simp only [allStarted, Bool.and_eq_true] at h
    cases es1 with
    | nil =>
      simp only [List.nil_append, List.cons.injEq] at he
      obtain ⟨rfl, -⟩ := he
      cases h1; exact h.1
    | cons e1 es1 =>
      simp only [List.cons_append, List.cons.injEq] at he
      obtain ⟨rfl, he⟩ := he
      simp only [dRun] at h1
      split at h1
      · rename_i d' hd
        rw [hd] at h
        exact ih h.2 es1 mb del es2 d1 he h1
      · cases h1

/-- Two transfers, one after the other, both successful; in the first a connection breaks. -/
def exTwo : List DEvent :=
  inSession ([.s (.discover ⟨[97], 10⟩), .s .finishDiscovery, .s (.connect 0), .v (.accept1 0), .s (.pop 0 (exSrc 97 1 10)),
    .s (.openOk 0), .s (.write 0 10), .v (.recvPart 0 4 false), .s (.sent 0 (.ok 5)), .s (.lose 0), .s (.connect 0),
    .v (.accept 0 true), .s (.readCp 0), .s (.pop 0 (exAgain (exSrc 97 1 10) 10 4)), .s (.openOk 0), .s (.write 0 6),
    .v (.recv 0), .s (.sent 0 (.ok 5))] ++ exWrapUp) ++
  [.next 0 false] ++
  inSession ([.s (.discover ⟨[98], 7⟩), .s .finishDiscovery, .s (.connect 0), .v (.accept1 0), .s (.pop 0 (exSrc 98 1 7)),
    .s (.openOk 0), .s (.write 0 7), .s (.sent 0 (.ok 5)), .v (.recv 0)] ++ exWrapUp)

example : ∃ d, dRun { n := 1 } (Daemon.init { n := 1 } 0 false) exTwo = some d ∧
    AllStarted { n := 1 } (Daemon.init { n := 1 } 0 false) exTwo ∧
    NoneUnverified { n := 1 } (Daemon.init { n := 1 } 0 false) exTwo ∧
    d.sys.landed = [⟨1, 0, 7⟩] ∧ (d.sys.port 0).sph = .ended true := by
  have h : (match dRun { n := 1 } (Daemon.init { n := 1 } 0 false) exTwo with
      | some d => decide (d.sys.landed = [⟨1, 0, 7⟩] ∧ (d.sys.port 0).sph = .ended true)
      | none => false) = true := by decide +kernel
  have h2 : allStarted { n := 1 } (Daemon.init { n := 1 } 0 false) exTwo = true := by decide +kernel
  split at h
  · rename_i d hd
    exact ⟨d, hd, allStarted_sound h2, C79_none_unverified _ (.inl rfl) _ _ _, of_decide_eq_true h⟩
  · cases h

/-- Its end meets the hypotheses of `C79_sessions_complete_partial`. -/
example : (match dRun { n := 1 } (Daemon.init { n := 1 } 0 false) exTwo with
    | some d => decide (d.sys.refused = false ∧ d.sys.silent = false ∧ d.sys.rcv.cps = []) && (dStep { n := 1 } d (.next 0 false)).isSome
    | none => false) = true := by decide +kernel

end Wdt
