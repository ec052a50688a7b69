import Verif.Lemmas.EndToEndWait
/-
Sender threads can always end, without help from the receiver.
-/
namespace Wdt

/-- Steps with which sender thread `v` ends: what it is doing fails, or it goes on handling an ERR
command, gives up, exits. -/
inductive Ending (v : Nat) : SEv → Prop
  | openFail : Ending v (.openFail v)
  | sent : Ending v (.sent v (.fail 0))
  | global : Ending v (.global v)
  | globalGo : Ending v (.globalGo v)
  | errDone : Ending v (.errDone v)
  | giveUp : Ending v (.giveUp v)
  | exit : Ending v (.exit v)

/-- No thread waits for nobody. -/
def NoStuck (S : ESys) : Prop := ∀ t, (S.port t).sph ≠ .processing [] true

theorem NoStuck.upd {S S' : ESys} {t : Nat} {p : Port} (h : NoStuck S) (hp : S'.port = upd S.port t p)
    (h' : p.sph ≠ .processing [] true) : NoStuck S' := by
  intro v
  rw [hp, upd_apply]
  split
  · exact h'
  · exact h v

theorem put_sph (p : Port) (m : UCmd) : (p.put m).sph = p.sph := by unfold Port.put; split <;> rfl

theorem NoStuck.stepS {c : ECfg} {S S' : ESys} {e : SEv} (h : NoStuck S) (hs : eStepS c S e = some S') : NoStuck S' := by
  have q : ∀ {S0 : ESys} {ev : SEvent}, NoStuck S0 → S0.snd? ev = some S' → NoStuck S' := by
    intro S0 ev h0 he
    obtain ⟨s', -, rfl⟩ := snd?_some he
    exact h0
  have own : ∀ t, (S.port t).sph ≠ .processing [] true := h
  cases e with
  | discover f => exact q h hs
  | finishDiscovery => exact q h hs
  | setPrev infos =>
    simp only [eStepS] at hs
    split at hs
    · cases hs
    · exact q h hs
  | openOk t => exact q h hs
  | openFail t => exact q h hs
  | exit t =>
    simp only [eStepS] at hs
    split at hs
    · exact q h hs
    · cases hs
  | pop t x =>
    simp only [eStepS] at hs
    split at hs
    · exact q (S0 := { S with began := true }) h hs
    · cases hs
  | sent t o =>
    simp only [eStepS] at hs
    split at hs
    · rename_i hh x _
      cases o with
      | ok k =>
        simp only at hs
        by_cases hw : decide ((S.port t).wrote = some x.size) = true
        · rw [if_pos hw] at hs
          refine q (h.upd (t := t) rfl ?_) hs
          split
          · simp [Port.leave]
          · exact own t
        · rw [if_neg hw] at hs; cases hs
      | fail k =>
        simp only [if_true] at hs
        refine q (h.upd (t := t) rfl ?_) hs
        split <;> simp [Port.leave]
    · cases hs
  | readCp t =>
    simp only [eStepS] at hs
    split at hs
    · refine q (h.upd (t := t) rfl ?_) hs
      split <;> simp [Port.leave]
    · cases hs
  | _ =>
    simp only [eStepS] at hs
    repeat' split at hs
    all_goals first
      | (cases hs; done)
      | (cases hs; exact h.upd rfl (by simp [Port.leave, put_sph, own]))
      | (exact q (h.upd rfl (by simp [Port.leave, put_sph, own])) hs)

theorem NoStuck.run {c : ECfg} {es : List EEvent} : ∀ {S S' : ESys}, NoStuck S → eRun c S es = some S' → NoStuck S' := by
  induction es with
  | nil => intro S S' hw h; simp only [eRun, Option.some.injEq] at h; exact h ▸ hw
  | cons e es ih =>
    intro S S' hw h
    simp only [eRun] at h
    split at h
    · rename_i S1 h1
      cases e with
      | s e => exact ih (hw.stepS h1) h
      | v e => exact ih (fun t => by rw [((eStepR_adds h1).2 t).1]; exact hw t) h
    · cases h

/-- All invariants. -/
structure Good (c : ECfg) (mb : Int) (del : Bool) (S : ESys) : Prop where
  p : PInv c S
  b : BInv c S
  c : CInv c mb del S
  w : WaitInv S
  n : NoStuck S

theorem Good.init (c : ECfg) (mb : Int) (del : Bool) : Good c mb del (ESys.init c mb del) :=
  ⟨PInv.init c mb del, BInv.init c mb del, CInv.init c mb del, WaitInv.init c mb del,
    by intro t; simp [ESys.init]⟩

theorem Good.run {c : ECfg} {mb : Int} {del : Bool} {S S' : ESys} {es : List EEvent} (h : Good c mb del S)
    (hr : eRun c S es = some S') : Good c mb del S' := by
  obtain ⟨a, b, d⟩ := einv_run h.p h.b h.c hr
  exact ⟨a, b, d, wait_run h.p h.w hr, h.n.run hr⟩

theorem Good.pot {c : ECfg} {mb : Int} {del : Bool} {S : ESys} (h : Good c mb del S) : PotInv deqPot S.snd := by
  obtain ⟨evs, h1, h2, -, -⟩ := h.c.run
  refine deqPot.final mb del c.n evs S.snd h2 ?_ h1
  refine Along.of_inv (fun _ => True) (fun _ => True) (fun s e _ _ => ?_) (fun _ _ _ _ _ _ => trivial) evs _ trivial
    (fun _ _ => trivial)
  cases e <;> simp [CpOK, deqPot]

theorem eRun_append {c : ECfg} {es es' : List EEvent} : ∀ {S S' S'' : ESys}, eRun c S es = some S' →
    eRun c S' es' = some S'' → eRun c S (es ++ es') = some S'' := by
  induction es with
  | nil => intro S S' S'' h h'; cases h; exact h'
  | cons e es ih =>
    intro S S' S'' h h'
    simp only [eRun, List.cons_append] at h ⊢
    split at h
    · exact ih h h'
    · cases h

/-- What the ending of threads in `A` does not change. -/
structure Keeps (A : Nat → Prop) (S S' : ESys) : Prop where
  rcv : S'.rcv = S.rcv
  port : ∀ u, ¬ A u → S'.port u = S.port u
  use : ∀ u, (S.hist u).inUse = false → (S'.hist u).inUse = false

theorem Keeps.refl (A : Nat → Prop) (S : ESys) : Keeps A S S := ⟨rfl, fun _ _ => rfl, fun _ h => h⟩

theorem Keeps.trans {A : Nat → Prop} {S S' S'' : ESys} (h : Keeps A S S') (h' : Keeps A S' S'') : Keeps A S S'' :=
  ⟨h'.rcv.trans h.rcv, fun u hu => (h'.port u hu).trans (h.port u hu), fun u hu => h'.use u (h.use u hu)⟩

theorem Keeps.mono {A B : Nat → Prop} (hAB : ∀ u, A u → B u) {S S' : ESys} (h : Keeps A S S') : Keeps B S S' :=
  ⟨h.rcv, fun u hu => h.port u fun ha => hu (hAB u ha), h.use⟩

theorem hist_eq (S : ESys) (u : Nat) : S.hist u = (S.snd.thr u).hist := rfl

theorem setP_other {S : ESys} {t u : Nat} {p : Port} (h : u ≠ t) : (S.setP t p).port u = S.port u := by
  simp [ESys.setP, upd_apply, h]

theorem use_set {s s' : SSys} {t : Nat} {th th' : SThread} (h : s.threads[t]? = some th)
    (hs : s'.threads = s.threads.set t th') (hu : th.hist.inUse = false → th'.hist.inUse = false) (u : Nat)
    (h1 : (s.thr u).hist.inUse = false) : (s'.thr u).hist.inUse = false := by
  rw [thr_set h hs, upd_apply]
  split
  · rename_i e; subst e; rw [thr_of_some h] at h1; exact hu h1
  · exact h1

/-- No thread opens a block and sends another. -/
def OneBusy (s : SSys) : Prop := ∀ th ∈ s.threads, th.opening = none ∨ th.cur = none

theorem OneBusy.set {s s' : SSys} {t : Nat} {th' : SThread} (h : OneBusy s) (hs : s'.threads = s.threads.set t th')
    (h' : th'.opening = none ∨ th'.cur = none) : OneBusy s' := by
  intro th hth
  rw [hs] at hth
  rcases List.mem_or_eq_of_mem_set hth with h1 | h1
  · exact h th h1
  · rw [h1]; exact h'

theorem OneBusy.apply {s s' : SSys} {t : Nat} {th : SThread} {r : Except Fault (CpRes × Hist × List (Source × Source))} (h : OneBusy s)
    (hth : s.threads[t]? = some th) (ha : applyCp s t th r = .ok s') : OneBusy s' := by
  have h' := h th (List.mem_of_getElem? hth)
  unfold applyCp at ha
  split at ha
  · cases ha
  · unfold giveBack at ha
    split at ha
    · cases ha
    · cases ha
      exact h.set rfl h'

theorem OneBusy.step {s s' : SSys} {e : SEvent} (h : OneBusy s) (hs : sStep s e = .ok s') : OneBusy s' := by
  cases e with
  | discover f => intro th hth; rw [(sStep_discover hs).2.1] at hth; exact h th hth
  | finishDiscovery => intro th hth; rw [(sStep_finishDiscovery hs).2.1] at hth; exact h th hth
  | setPrev infos => intro th hth; rw [(sStep_setPrev hs).1] at hth; exact h th hth
  | pop t x =>
    obtain ⟨th, _, _, hc, _, _, rfl⟩ := sStep_pop hs
    exact h.set rfl (.inr hc)
  | openOk t =>
    obtain ⟨th, x, _, _, _, rfl⟩ := sStep_openOk hs
    exact h.set rfl (.inl rfl)
  | openFail t =>
    obtain ⟨th, x, _, _, _, rfl⟩ := sStep_openFail hs
    exact h.set rfl (.inl rfl)
  | sent t o =>
    have hs0 := hs
    simp only [sStep] at hs
    split at hs
    · rename_i hh x hth
      obtain ⟨H', l, h2, -⟩ := sStep_sent hth rfl rfl hs0
      refine h.set (t := t) (th' := ⟨H', none, none⟩) ?_ (.inl rfl)
      rw [h2]; rfl
    · cases hs
  | localCp t cp =>
    obtain ⟨th, hth, _, _, _, ha⟩ := sStep_localCp hs
    exact h.apply hth ha
  | globalCp t cp =>
    simp only [sStep] at hs
    split at hs
    · rename_i th hth; exact h.apply hth hs
    · cases hs; exact h
  | markAll t =>
    obtain ⟨th, hth, rfl⟩ := sStep_markAll hs
    exact h.set rfl (h th (List.mem_of_getElem? hth))
  | returnUnacked t =>
    simp only [sStep] at hs
    split at hs
    · rename_i th hth; exact h.apply hth hs
    · cases hs
  | exit t =>
    obtain ⟨th, hth, _, ho, rfl⟩ := sStep_exit hs
    exact h.set rfl (.inl ho)

theorem OneBusy.run {evs : List SEvent} : ∀ {s s' : SSys}, OneBusy s → sRun s evs = .ok s' → OneBusy s' := by
  induction evs with
  | nil => intro s s' h hs; simp only [sRun] at hs; cases hs; exact h
  | cons e evs ih =>
    intro s s' h hs
    simp only [sRun] at hs
    split at hs
    · rename_i h1; exact ih (h.step h1) hs
    · cases hs
    · cases hs

theorem Good.oneBusy {c : ECfg} {mb : Int} {del : Bool} {S : ESys} (h : Good c mb del S) : OneBusy S.snd := by
  obtain ⟨evs, h1, -⟩ := h.c.run
  refine OneBusy.run ?_ h1
  intro th hth
  simp only [SSys.init, List.mem_replicate] at hth
  rw [hth.2]; exact .inl rfl

/-- Thread `t` has nothing in its hands and is at `ph`. -/
structure At (S : ESys) (t : Nat) (ph : SPh) : Prop where
  sph : (S.port t).sph = ph
  open' : (S.snd.thr t).opening = none
  cur : (S.snd.thr t).cur = none

theorem At.get {S : ESys} {t : Nat} {ph : SPh} (h : At S t ph) (ht : t < S.snd.threads.length) :
    S.snd.threads[t]? = some ⟨(S.snd.thr t).hist, none, none⟩ := by
  rw [some_of_lt ht]
  have := h.open'; have := h.cur
  cases hth : S.snd.thr t
  simp_all

/-- There are steps with which threads in `A` end and that lead to `Q`. -/
def CanGet (c : ECfg) (A : Nat → Prop) (S : ESys) (Q : ESys → Prop) : Prop :=
  ∃ es S', (∀ e ∈ es, ∃ v e', e = .s e' ∧ A v ∧ Ending v e') ∧ eRun c S es = some S' ∧ Keeps A S S' ∧ Q S'

theorem CanGet.here {c : ECfg} {A : Nat → Prop} {S : ESys} {Q : ESys → Prop} (h : Q S) : CanGet c A S Q :=
  ⟨[], S, by simp, rfl, .refl A S, h⟩

theorem CanGet.step {c : ECfg} {A : Nat → Prop} {S S' : ESys} {Q : ESys → Prop} {v : Nat} {e : SEv} (ha : A v)
    (he : Ending v e) (hs : eStepS c S e = some S') (hk : Keeps A S S') (h : Q S') : CanGet c A S Q :=
  ⟨[.s e], S', by simpa using ⟨v, ha, he⟩, by simp [eRun, eStep, hs], hk, h⟩

theorem CanGet.trans {c : ECfg} {mb : Int} {del : Bool} {A : Nat → Prop} {S : ESys} {Q R : ESys → Prop} (hg : Good c mb del S)
    (h : CanGet c A S Q) (h' : ∀ S', Good c mb del S' → Keeps A S S' → Q S' → CanGet c A S' R) : CanGet c A S R := by
  obtain ⟨es, S', h1, h2, h3, h4⟩ := h
  obtain ⟨es', S'', g1, g2, g3, g4⟩ := h' S' (hg.run h2) h3 h4
  refine ⟨es ++ es', S'', ?_, eRun_append h2 g2, h3.trans g3, g4⟩
  intro e he
  rcases List.mem_append.mp he with he | he
  · exact h1 e he
  · exact g1 e he

theorem CanGet.mono {c : ECfg} {A B : Nat → Prop} (hAB : ∀ u, A u → B u) {S : ESys} {Q R : ESys → Prop} (hQR : ∀ S', Q S' → R S')
    (h : CanGet c A S Q) : CanGet c B S R := by
  obtain ⟨es, S', h1, h2, h3, h4⟩ := h
  refine ⟨es, S', fun e he => ?_, h2, h3.mono hAB, hQR _ h4⟩
  obtain ⟨v, e', a, b, d⟩ := h1 e he
  exact ⟨v, e', a, hAB v b, d⟩

variable {c : ECfg} {mb : Int} {del : Bool}

/-- A thread that has ended can exit. -/
theorem lead_exit {S : ESys} {t : Nat} {ok : Bool} (hg : Good c mb del S) (ht : t < c.n) (h : At S t (.ended ok)) :
    CanGet c (· = t) S fun S' => (S'.hist t).inUse = false := by
  have hl : t < S.snd.threads.length := by rw [hg.p.len]; exact ht
  have hget := h.get hl
  have hs : eStepS c S (.exit t) = some { S with
      snd := { S.snd with
        threads := S.snd.threads.set t ⟨{ (S.snd.thr t).hist with inUse := false }, none, none⟩ } } := by
    simp [eStepS, h.sph, ESys.snd?, sStep, hget]
  refine .step rfl .exit hs ⟨rfl, fun _ _ => rfl, fun u hu => ?_⟩ ?_
  · exact use_set hget rfl (fun _ => rfl) u hu
  · rw [hist_eq, thr_set hget rfl, upd_self]

/-- A thread that waits for nothing can give up. -/
theorem lead_giveUp {S : ESys} {t : Nat} {ph : SPh} (hg : Good c mb del S) (ht : t < c.n) (h : At S t ph)
    (hp : ∀ l w, ph ≠ .processing l w) : CanGet c (· = t) S fun S' => (S'.hist t).inUse = false := by
  by_cases he : ∃ ok, ph = .ended ok
  · obtain ⟨ok, rfl⟩ := he
    exact lead_exit hg ht h
  have hl : t < S.snd.threads.length := by rw [hg.p.len]; exact ht
  have hget := h.get hl
  have hs : eStepS c S (.giveUp t) = some (S.setP t ((S.port t).leave (.ended false))) := by
    simp only [eStepS, hget, h.sph]
    rw [if_pos]
    cases ph with
    | processing l w => exact absurd rfl (hp l w)
    | ended ok => exact absurd ⟨ok, rfl⟩ he
    | _ => simp
  refine CanGet.trans hg (Q := fun S' => At S' t (.ended false)) (.step rfl .giveUp hs ⟨rfl, fun u hu => setP_other hu, fun u hu => hu⟩ ?_)
    (fun S' hg' _ h' => lead_exit hg' ht h')
  exact ⟨by simp [ESys.setP, upd_self, Port.leave], h.open', h.cur⟩

/-- A thread that is sending can stop. -/
theorem lead_busy {S : ESys} {t : Nat} (hg : Good c mb del S) (ht : t < c.n)
    (hb : (S.snd.thr t).opening.isSome = true ∨ (S.snd.thr t).cur.isSome = true) :
    CanGet c (· = t) S fun S' => ∃ ph, At S' t ph ∧ ∀ l w, ph ≠ .processing l w := by
  have hl : t < S.snd.threads.length := by rw [hg.p.len]; exact ht
  have hsend := (hg.p.loc t).busy hb
  have hget := some_of_lt hl
  have hone : (S.snd.thr t).opening = none ∨ (S.snd.thr t).cur = none := 
    hg.oneBusy _ (List.mem_of_getElem? hget)
  cases hth : S.snd.thr t with
  | mk hist opening cur =>
    rw [hth] at hb hget hone
    cases opening with
    | some x =>
      have : cur = none := by simpa using hone
      subst this
      have hs : eStepS c S (.openFail t) = some { S with snd := { S.snd with
          q := { S.snd.q with failed := S.snd.q.failed ++ [openFailedSource x] },
          threads := S.snd.threads.set t ⟨hist, none, none⟩ } } := by
        simp [eStepS, ESys.snd?, sStep, hget]
      have hthr : ({ S.snd with
          q := { S.snd.q with failed := S.snd.q.failed ++ [openFailedSource x] },
          threads := S.snd.threads.set t ⟨hist, none, none⟩ } : SSys).thr = upd S.snd.thr t ⟨hist, none, none⟩ := thr_set hget rfl
      refine .step rfl .openFail hs ⟨rfl, fun _ _ => rfl, fun u hu => ?_⟩ ⟨.sending, ⟨hsend, ?_, ?_⟩, by simp⟩
      · exact use_set (th' := ⟨hist, none, none⟩) hget rfl id u hu
      · rw [hthr, upd_self]
      · rw [hthr, upd_self]
    | none =>
      cases cur with
      | none => simp at hb
      | some x =>
        have hd := deq_eq hg.pot _ (List.mem_of_getElem? hget)
        simp only [Option.toList_some, List.length_singleton] at hd
        obtain ⟨s', hs'⟩ := @giveBack_noFault S.snd t ⟨(addSource { hist with stats := hist.stats.add (sendStats x (.fail 0)) }
            { x with stats := x.stats.add (sendStats x (.fail 0)) }).1, none, none⟩
            (addSource { hist with stats := hist.stats.add (sendStats x (.fail 0)) }
            { x with stats := x.stats.add (sendStats x (.fail 0)) }).2 (by
              unfold addSource
              cases hist.globalCp with
              | true => simp only [if_true, List.length_singleton]; omega
              | false => simp only [Bool.false_eq_true, if_false, List.length_nil]; omega)
        have h1 : sStep S.snd (.sent t (.fail 0)) = .ok s' := by simp only [sStep, hget]; exact hs'
        obtain ⟨H', l, h2, h3, -⟩ := sStep_sent hget rfl rfl h1
        have hthr : s'.threads = S.snd.threads.set t ⟨H', none, none⟩ := by rw [h2]; rfl
        have hs : eStepS c S (.sent t (.fail 0)) = some { S.setP t (if hist.globalCp then (S.port t).leave (.ended false)
            else (S.port t).leave .lost) with snd := s' } := by
          simp [eStepS, hget, ESys.snd?, ESys.setP, h1]
        refine .step rfl .sent hs ⟨rfl, fun u hu => setP_other hu, fun u hu => ?_⟩
          ⟨if hist.globalCp then .ended false else .lost, ⟨?_, ?_, ?_⟩, ?_⟩
        · exact use_set hget hthr (fun e => by rw [h3]; exact e) u hu
        · simp only [ESys.setP, upd_self]; split <;> rfl
        · show (s'.thr t).opening = none
          rw [thr_set hget hthr, upd_self]
        · show (s'.thr t).cur = none
          rw [thr_set hget hthr, upd_self]
        · intro l w; split <;> simp

/-- A thread that waits for another one can go on when that one can end. -/
theorem lead_wait {A : Nat → Prop} {t u : Nat} {cp : Checkpoint} {l : List (Nat × Checkpoint)} (hA : ¬ A t) {S1 : ESys}
    (hg1 : Good c mb del S1) (hat1 : (S1.port t).sph = .processing ((u, cp) :: l) true)
    (hl : CanGet c A S1 fun S'' => (S''.hist u).inUse = false) :
    CanGet c (fun v => A v ∨ v = t) S1 fun S' => At S' t (.processing l false) := by
  refine CanGet.trans hg1 (Q := fun S' => (S'.hist u).inUse = false ∧ (S'.port t).sph = .processing ((u, cp) :: l) true) ?_ ?_
  · obtain ⟨es, S2, a1, a2, a3, a4⟩ := hl
    refine ⟨es, S2, fun e he => ?_, a2, a3.mono (fun _ => .inl), a4, ?_⟩
    · obtain ⟨v, e', b1, b2, b3⟩ := a1 e he
      exact ⟨v, e', b1, .inl b2, b3⟩
    · rw [a3.port t hA]; exact hat1
  intro S2 hg2 hk2 hQ
  have hb := (hg2.p.loc t).busy
  rw [hQ.2] at hb
  have hs2 : eStepS c S2 (.globalGo t) = some (S2.setP t { S2.port t with sph := .processing l false }) := by
    simp [eStepS, hQ.2, hQ.1]
  refine .step (.inr rfl) .globalGo hs2 ⟨rfl, fun v hv => setP_other fun e => hv (.inr e), fun v hv => hv⟩
    ⟨by simp [ESys.setP, upd_self], ?_, ?_⟩
  · show (S2.snd.thr t).opening = none
    cases ho : (S2.snd.thr t).opening with
    | none => rfl
    | some x => exact absurd (hb (.inl (by simp [ho]))) (by simp)
  · show (S2.snd.thr t).cur = none
    cases ho : (S2.snd.thr t).cur with
    | none => rfl
    | some x => exact absurd (hb (.inr (by simp [ho]))) (by simp)

/-- The list of failed threads that thread `t` handles can be worked off, if the threads in it can end. -/
theorem lead_list {A : Nat → Prop} {t : Nat} (ht : t < c.n) (hA : ¬ A t) : ∀ (l : List (Nat × Checkpoint)) (S : ESys),
    Good c mb del S → At S t (.processing l false) →
    (∀ x ∈ l, ∀ S', Good c mb del S' → S'.rcv = S.rcv → CanGet c A S' fun S'' => (S''.hist x.1).inUse = false) →
    CanGet c (fun v => A v ∨ v = t) S fun S' => (S'.hist t).inUse = false := by
  intro l
  induction l with
  | nil =>
    intro S hg h _
    have hs : eStepS c S (.errDone t) = some (S.setP t { S.port t with sph := .sending }) := by
      simp [eStepS, h.sph]
    refine CanGet.trans hg (Q := fun S' => At S' t .sending) (.step (.inr rfl) .errDone hs
      ⟨rfl, fun u hu => setP_other fun e => hu (.inr e), fun u hu => hu⟩ ⟨?_, h.open', h.cur⟩)
      (fun S' hg' _ h' => (lead_giveUp hg' ht h' (by simp)).mono (fun _ e => .inr e) (fun _ e => e))
    simp [ESys.setP, upd_self]
  | cons x l ih =>
    obtain ⟨u, cp⟩ := x
    intro S hg h hl
    have hk := (hg.p.thr t).pr1 _ _ h.sph (u, cp) (by simp)
    have hun : u < S.snd.threads.length := by rw [hg.p.len]; exact hg.p.rlt u hk.1
    have hgood : GoodCp S.landed cp := by
      have e : cp = S.cpv u := hk.2
      rw [e]; exact hg.p.cpg u hk.1
    have hut : u ≠ t := by
      have := (hg.w t _ (.inr ⟨false, h.sph⟩) (u, cp) (by simp)).lt
      rintro rfl
      exact Nat.lt_irrefl _ this
    obtain ⟨s', hs'⟩ := applyCp_noFault (g := true) hg.pot (some_of_lt hun) hgood.nonneg
    have h1 : sStep S.snd (.globalCp u cp) = .ok s' := by simp only [sStep, some_of_lt hun]; exact hs'
    obtain ⟨H', lb, h2, -, h3, -⟩ := applyCp_shape hs'
    have hthr : s'.threads = S.snd.threads.set u { S.snd.thr u with hist := H' } := by rw [h2]; rfl
    have hs : eStepS c S (.global t) = some { S.setP t { S.port t with sph := .processing ((u, cp) :: l) true } with
        snd := s', refused := S.refused || refusedCp (S.hist u) cp true } := by
      simp [eStepS, h.sph, ESys.snd?, ESys.setP, h1]
    refine CanGet.trans hg (Q := fun S' => At S' t (.processing ((u, cp) :: l) true)) (.step (.inr rfl) .global hs
      ⟨rfl, fun v hv => setP_other fun e => hv (.inr e), fun v hv => ?_⟩ ⟨by simp [ESys.setP, upd_self], ?_, ?_⟩) ?_
    · exact use_set (some_of_lt hun) hthr (fun e => by rw [h3]; exact e) v hv
    · show (s'.thr t).opening = none
      rw [thr_set (some_of_lt hun) hthr, upd_apply, if_neg (Ne.symm hut)]; exact h.open'
    · show (s'.thr t).cur = none
      rw [thr_set (some_of_lt hun) hthr, upd_apply, if_neg (Ne.symm hut)]; exact h.cur
    intro S1 hg1 hk1 hat1
    refine CanGet.trans hg1 (lead_wait hA hg1 hat1.sph (hl (u, cp) (by simp) S1 hg1 hk1.rcv)) fun S3 hg3 hk3 hat3 => ?_
    refine ih S3 hg3 hat3 fun y hy S' hg' hr => ?_
    exact hl y (List.mem_cons_of_mem _ hy) S' hg' (hr.trans (hk3.rcv.trans hk1.rcv))

/-- Every sender thread can end. -/
theorem lead_end (r : Nat) : ∀ (t : Nat) (S : ESys), Good c mb del S → t < c.n → S.rcv.cps.idxOf t = r →
    CanGet c (fun v => S.rcv.cps.idxOf v < r ∨ v = t) S fun S' => (S'.hist t).inUse = false := by
  induction r using Nat.strongRecOn with
  | _ r ih =>
    intro t S hg ht hr
    have own : ∀ {Q : ESys → Prop}, CanGet c (· = t) S Q → CanGet c (fun v => S.rcv.cps.idxOf v < r ∨ v = t) S Q :=
      fun h => h.mono (fun _ e => .inr e) fun _ e => e
    by_cases hb : (S.snd.thr t).opening.isSome = true ∨ (S.snd.thr t).cur.isSome = true
    · refine own (CanGet.trans hg (lead_busy hg ht hb) fun S' hg' _ h => ?_)
      obtain ⟨ph, hat, hp⟩ := h
      exact lead_giveUp hg' ht hat hp
    · have ho : (S.snd.thr t).opening = none := by
        cases h : (S.snd.thr t).opening with
        | none => rfl
        | some x => exact absurd (.inl (by simp [h])) hb
      have hc : (S.snd.thr t).cur = none := by
        cases h : (S.snd.thr t).cur with
        | none => rfl
        | some x => exact absurd (.inr (by simp [h])) hb
      by_cases hp : ∃ l w, (S.port t).sph = .processing l w
      swap
      · exact own (lead_giveUp hg ht ⟨rfl, ho, hc⟩ fun l w e => hp ⟨l, w, e⟩)
      obtain ⟨l, w, hp⟩ := hp
      have hlead : ∀ x ∈ l, ∀ S', Good c mb del S' → S'.rcv = S.rcv →
          CanGet c (fun v => S.rcv.cps.idxOf v < r) S' fun S'' => (S''.hist x.1).inUse = false := by
        intro x hx S' hg' hrcv
        have hlt := (hg.w t l (.inr ⟨w, hp⟩) x hx).lt
        have hk := (hg.p.thr t).pr1 _ _ hp x hx
        rw [hr] at hlt
        refine (ih _ hlt x.1 S' hg' (hg.p.rlt _ hk.1) (by rw [hrcv])).mono (fun u hu => ?_) fun _ e => e
        rw [hrcv] at hu
        rcases hu with hu | hu
        · exact Nat.lt_trans hu hlt
        · rw [hu]; exact hlt
      have hnt : ¬ S.rcv.cps.idxOf t < r := by omega
      cases w with
      | false => exact lead_list ht hnt l S hg ⟨hp, ho, hc⟩ hlead
      | true =>
        cases l with
        | nil => exact absurd hp (hg.n t)
        | cons x l =>
          obtain ⟨u, cp⟩ := x
          refine CanGet.trans hg (lead_wait (A := fun v => S.rcv.cps.idxOf v < r) hnt hg hp (hlead (u, cp) (by simp) S hg rfl)) fun S' hg' hk' hat => ?_
          exact lead_list ht hnt l S' hg' hat fun y hy S'' hg'' hr =>
            hlead y (List.mem_cons_of_mem _ hy) S'' hg'' (hr.trans hk'.rcv)

end Wdt
