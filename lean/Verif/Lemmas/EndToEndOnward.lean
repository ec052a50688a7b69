import Verif.Lemmas.EndToEndFinish
import Verif.Lemmas.EndToEndCalm
/-
Executions in which connections break and nobody gives up.
-/
namespace Wdt

/-- No thread gives up: no sender thread ends because it has tried often enough, no receiver thread
stops accepting, meets an error of its own or ends silently. -/
def NoGivingUp : EEvent → Prop
  | .s (.giveUp _) => False
  | .v (.accept _ false) => False
  | .v (.recvPart _ _ true) => False
  | .v (.lost _ _ true) => False
  | .v (.silentEnd _) => False
  | _ => True

instance (e : EEvent) : Decidable (NoGivingUp e) := by
  unfold NoGivingUp; split <;> infer_instance

/-- Receiver threads only end after the decision. -/
def ROn (S : ESys) : Prop :=
  ∀ v, (S.rcv.th v).phase ≠ .failing ∧
    ((S.rcv.th v).phase = .decided ∨ (S.rcv.th v).phase = .sendDone ∨ (S.rcv.th v).phase = .ended → S.dec = true)

/-- Steps that do not lead to an end, but for the decision. -/
def Onward : REvent → Prop
  | .error _ => False
  | .accepted _ false => False
  | .silentEnd _ => False
  | .query _ => False
  | _ => True

theorem ROn.rcv {c : ECfg} {S S' : ESys} {e : REvent} (h : ROn S) (he : Onward e) (hs : S.rcv? c e = some S') : ROn S' := by
  obtain ⟨r', h1, rfl⟩ := rcv?_some hs
  have key : ∀ {t : Nat} {r : RThr}, r'.th = upd S.rcv.th t r → r.phase ≠ .failing →
      (r.phase = .decided ∨ r.phase = .sendDone ∨ r.phase = .ended → S.dec = true) → ROn { S with rcv := r' } := by
    intro t r ht k1 k2 v
    show ((r'.th v).phase ≠ .failing) ∧ ((r'.th v).phase = .decided ∨ (r'.th v).phase = .sendDone ∨ (r'.th v).phase = .ended → S.dec = true)
    rw [ht, upd_apply]
    split
    · exact ⟨k1, k2⟩
    · exact h v
  cases e with
  | error t => exact he.elim
  | silentEnd t => exact he.elim
  | query t => exact he.elim
  | accepted t ok =>
    cases ok with
    | false => exact he.elim
    | true =>
      simp only [rStep] at h1
      split at h1
      · simp only [if_true] at h1; cases h1; exact key rfl (by simp) (by simp)
      · cases h1
  | failed t =>
    simp only [rStep] at h1
    split at h1
    · rename_i hp; exact absurd hp.2.1 (h t).1
    · cases h1
  | file t =>
    simp only [rStep] at h1
    split at h1
    · rename_i hp
      cases h1
      exact key rfl (by simp [hp.2]) (by simp [hp.2])
    · cases h1
  | finish t =>
    simp only [rStep] at h1
    split at h1
    · rename_i hp
      cases h1
      exact key rfl (by simp) (fun _ => (h t).2 (.inl hp.2))
    · cases h1
  | doneSent t ok =>
    simp only [rStep] at h1
    split at h1
    · rename_i hp
      have hd := (h t).2 (.inr (.inl hp.2))
      cases ok <;> simp only [if_true, Bool.false_eq_true, if_false] at h1 <;> cases h1 <;> exact key rfl (by simp) (fun _ => hd)
    · cases h1
  | look t =>
    simp only [rStep] at h1
    split at h1
    · split at h1 <;> cases h1 <;> exact key rfl (by simp) (by simp)
    · cases h1
  | globalWritten t ok =>
    simp only [rStep] at h1
    split at h1
    · split at h1 <;> cases h1 <;> exact key rfl (by simp) (by simp)
    · cases h1
  | _ =>
    simp only [rStep] at h1
    split at h1
    · cases h1; exact key rfl (by simp) (by simp)
    · cases h1

theorem ROn.stepR {c : ECfg} {S S' : ESys} {e : WEv} (hc : ROn S) (he : NoGivingUp (.v e))
    (h : eStepR c S e = some S') : ROn S' := by
  cases e with
  | silentEnd t => exact he.elim
  | recvPart t w fatal =>
    cases fatal with
    | true => exact he.elim
    | false =>
      simp only [eStepR] at h
      split at h
      · split at h
        · split at h
          · rename_i S1 hS1
            refine ROn.rcv (ROn.rcv ?_ (by trivial) hS1) (by simp [Onward]) h
            exact hc
          · cases h
        · cases h
      · cases h
  | query t =>
    simp only [eStepR] at h
    split at h
    · rename_i S1 hS1
      cases h
      obtain ⟨r', h1, rfl⟩ := rcv?_some hS1
      simp only [rStep] at h1
      split at h1
      · rename_i hp
        split at h1
        · cases h1
          intro v
          simp only [upd_apply]
          split
          · simp
          · refine ⟨(hc v).1, fun hd => ?_⟩
            simp [(hc v).2 hd]
        · cases h1
          intro v
          simp only [upd_apply]
          split
          · simp
          · refine ⟨(hc v).1, fun hd => ?_⟩
            simp
      · cases h1
    · cases h
  | doneSent t ok =>
    simp only [eStepR] at h
    exact ROn.rcv (S := S.setP t _) hc (by trivial) h
  | sendGlobal t ok =>
    simp only [eStepR] at h
    exact ROn.rcv (S := S.setP t _) hc (by trivial) h
  | recv t =>
    simp only [eStepR] at h
    split at h
    · split at h
      · exact ROn.rcv (S := { S.setP t _ with landed := _ }) hc (by trivial) h
      · cases h
    · cases h
  | accept t ok =>
    cases ok with
    | false => exact he.elim
    | true =>
      simp only [eStepR, if_true] at h
      split at h
      · exact ROn.rcv (S := S.setP t _) hc (by trivial) h
      · cases h
  | lost t reset fatal =>
    cases fatal with
    | true => exact he.elim
    | false =>
      simp only [eStepR, Bool.false_eq_true, if_false] at h
      split at h
      · exact ROn.rcv (S := S.setP t _) hc (by trivial) h
      · cases h
  | failed t =>
    simp only [eStepR] at h
    refine ROn.rcv (e := .failed t) ?_ (by trivial) h
    exact hc
  | _ =>
    simp only [eStepR] at h
    first
      | exact hc.rcv (by trivial) h
      | (repeat' split at h
         all_goals first
          | (cases h; done)
          | (cases h; exact hc)
          | (refine ROn.rcv ?_ (by trivial) h; exact hc))

/-- No sender thread has ended with an error. -/
def SOn (S : ESys) : Prop := ∀ v, (S.port v).sph ≠ .ended false

theorem SOn.set {S : ESys} (h : SOn S) (t : Nat) {p : Port} (hp : p.sph ≠ .ended false) : SOn (S.setP t p) := by
  intro v
  show (upd S.port t p v).sph ≠ _
  rw [upd_apply]
  split
  · exact hp
  · exact h v

theorem SOn.stepS {c : ECfg} {mb : Int} {del : Bool} {S S' : ESys} {e : SEv} (hg : Good c mb del S) (hz : ZInv S) (hca : Calm S)
    (hc : SOn S) (he : NoGivingUp (.s e)) (h : eStepS c S e = some S') : SOn S' := by
  have q : ∀ {S1 S2 : ESys} {e : SEvent}, S1.snd? e = some S2 → SOn S1 → SOn S2 := by
    intro S1 S2 e h hc
    obtain ⟨s', -, rfl⟩ := snd?_some h
    exact hc
  have hcps : ∀ v, (S.snd.thr v).hist.globalCp = false := by
    intro v
    cases hgc : (S.snd.thr v).hist.globalCp with
    | false => rfl
    | true =>
      have := ((hg.p.loc v).glob hgc).1
      rw [hca.1] at this
      simp at this
  cases e with
  | giveUp t => exact he.elim
  | sent t o =>
    simp only [eStepS] at h
    split at h
    · rename_i hh x hth
      have hgc : hh.globalCp = false := by
        have := hcps t
        rw [thr_of_some hth] at this
        exact this
      cases o with
      | ok k =>
        simp only [hgc, Bool.false_eq_true, if_false] at h
        split at h
        · exact q h (hc.set t (hc t))
        · cases h
      | fail k =>
        simp only [hgc, Bool.false_eq_true, if_false, if_true] at h
        exact q h (hc.set t (by simp [Port.leave]))
    · cases h
  | readCp t =>
    simp only [eStepS] at h
    split at h
    · rename_i cp rest hph hin
      have hm : .localCp cp ∈ (S.port t).inbox := by rw [hin]; simp
      have hnr : refusedCp (S.hist t) cp false = false := by
        refine cp_not_refused hg hz ?_ false ((hg.p.loc t).loc cp hm).2.2.1 ((hz.port t).loc cp hm)
        constructor
        · cases ho : (S.snd.thr t).opening with
          | none => rfl
          | some x => have := (hg.p.loc t).busy (.inl (by simp [ho])); rw [hph] at this; cases this
        · cases ho : (S.snd.thr t).cur with
          | none => rfl
          | some x => have := (hg.p.loc t).busy (.inr (by simp [ho])); rw [hph] at this; cases this
      refine q h (hc.set t ?_)
      rw [if_neg (by simp [hnr])]
      simp
    · cases h
  | doneEnd t ok =>
    simp only [eStepS] at h
    split at h
    · cases h
      refine hc.set t ?_
      cases ok <;> simp [Port.leave]
    · cases h
  | write t n =>
    simp only [eStepS] at h
    split at h
    · split at h
      · rename_i hp
        cases h
        refine hc.set t ?_
        show (((S.port t).put _).sph) ≠ _
        rw [put_sph, hp.1]; simp
      · cases h
    · cases h
  | connect t =>
    simp only [eStepS] at h
    split at h
    · split at h
      · cases h; exact hc.set t (by simp)
      · cases h; exact hc.set t (by simp)
      · cases h
    · cases h
  | sendDone t =>
    simp only [eStepS] at h
    split at h
    · split at h
      · cases h; exact hc.set t (by simp)
      · cases h
    · cases h
  | lose t =>
    simp only [eStepS] at h
    split at h
    · split at h
      · cases h; exact hc.set t (by simp [Port.leave])
      · cases h
    · cases h
  | readWait t =>
    simp only [eStepS] at h
    split at h
    · exact q h (hc.set t (hc t))
    · cases h
  | readErr t =>
    simp only [eStepS] at h
    split at h
    · exact q h (hc.set t (by simp))
    · cases h
  | errLost t =>
    simp only [eStepS] at h
    split at h
    · exact q h (hc.set t (by simp [Port.leave]))
    · cases h
  | global t =>
    simp only [eStepS] at h
    split at h
    · exact q h (hc.set t (by simp))
    · cases h
  | globalGo t =>
    simp only [eStepS] at h
    split at h
    · split at h
      · cases h
      · cases h; exact hc.set t (by simp)
    · cases h
  | errDone t =>
    simp only [eStepS] at h
    split at h
    · cases h; exact hc.set t (by simp)
    · cases h
  | readDone t =>
    simp only [eStepS] at h
    split at h
    · exact q h (hc.set t (by simp))
    · cases h
  | pop t x =>
    simp only [eStepS] at h
    split at h
    · exact q h hc
    · cases h
  | exit t =>
    simp only [eStepS] at h
    split at h
    · exact q h hc
    · cases h
  | setPrev i =>
    simp only [eStepS] at h
    split at h
    · cases h
    · exact q h hc
  | _ => simp only [eStepS] at h; exact q h hc

/-- Nobody has ended but after the decision. -/
structure Going (c : ECfg) (mb : Int) (del : Bool) (S : ESys) : Prop where
  good : Good c mb del S
  zero : ZInv S
  calm : Calm S
  ron : ROn S
  son : SOn S

theorem Going.init (c : ECfg) (mb : Int) (del : Bool) : Going c mb del (ESys.init c mb del) where
  good := Good.init c mb del
  zero := ZInv.init c mb del
  calm := ⟨rfl, rfl, rfl⟩
  ron := fun v => by simp [ESys.init]
  son := fun v => by simp [ESys.init]

theorem eStepS_far {c : ECfg} {S S' : ESys} {e : SEv} (h : eStepS c S e = some S') : S'.rcv = S.rcv ∧ S'.dec = S.dec := by
  have q : ∀ {S1 S2 : ESys} {e : SEvent}, S1.rcv = S.rcv ∧ S1.dec = S.dec → S1.snd? e = some S2 → S2.rcv = S.rcv ∧ S2.dec = S.dec := by
    intro S1 S2 e hc h
    obtain ⟨s', -, rfl⟩ := snd?_some h
    exact hc
  cases e with
  | sent t o =>
    simp only [eStepS] at h
    split at h
    · rename_i hh x _
      cases o with
      | ok k =>
        simp only at h
        by_cases hw : decide ((S.port t).wrote = some x.size) = true
        · rw [if_pos hw] at h; exact q (S1 := S.setP t _) ⟨rfl, rfl⟩ h
        · rw [if_neg hw] at h; cases h
      | fail k =>
        simp only [if_true] at h
        exact q (S1 := S.setP t _) ⟨rfl, rfl⟩ h
    · cases h
  | readCp t =>
    simp only [eStepS] at h
    split at h
    · exact q (S1 := S.setP t _) ⟨rfl, rfl⟩ h
    · cases h
  | _ =>
    simp only [eStepS] at h
    first
      | exact q ⟨rfl, rfl⟩ h
      | (repeat' split at h
         all_goals first
          | (cases h; done)
          | (cases h; exact ⟨rfl, rfl⟩)
          | (refine q ?_ h; exact ⟨rfl, rfl⟩))

theorem SOn.stepR {c : ECfg} {S S' : ESys} {e : WEv} (hc : SOn S) (h : eStepR c S e = some S') : SOn S' := by
  intro v
  rw [((eStepR_frame h).port v).1]
  exact hc v

theorem Going.step {c : ECfg} {mb : Int} {del : Bool} (hc : (c.tagged || c.footer) = true) {S S' : ESys} {e : EEvent}
    (h : Going c mb del S) (he : NoGivingUp e) (hs : eStep c S e = some S') : Going c mb del S' := by
  have hrun : eRun c S [e] = some S' := by simp [eRun, hs]
  have hg := h.good.run hrun
  have hz := h.zero.run hc h.good hrun
  cases e with
  | s e =>
    obtain ⟨f1, f2⟩ := eStepS_far hs
    exact ⟨hg, hz, h.calm.stepS h.good.p hs, fun v => by rw [f1, f2]; exact h.ron v, h.son.stepS h.good h.zero h.calm he hs⟩
  | v e =>
    refine ⟨hg, hz, ?_, h.ron.stepR he hs, h.son.stepR hs⟩
    by_cases hf : ∃ t, e = .failed t
    · obtain ⟨t, rfl⟩ := hf
      simp only [eStep, eStepR] at hs
      obtain ⟨r', h1, -⟩ := rcv?_some hs
      simp only [rStep] at h1
      split at h1
      · rename_i hp; exact absurd hp.2.1 (h.ron t).1
      · cases h1
    · refine h.calm.stepR (fun t ht => hf ⟨t, ht⟩) (fun t ht => ?_) hs
      rw [ht] at he; exact he

theorem Going.run {c : ECfg} {mb : Int} {del : Bool} (hc : (c.tagged || c.footer) = true) : ∀ {es : List EEvent} {S S' : ESys},
    Going c mb del S → (∀ e ∈ es, NoGivingUp e) → eRun c S es = some S' → Going c mb del S' := by
  intro es
  induction es with
  | nil => intro S S' h _ hr; simp only [eRun, Option.some.injEq] at hr; exact hr ▸ h
  | cons e es ih =>
    intro S S' h he hr
    simp only [eRun] at hr
    split at hr
    · rename_i S1 hs
      exact ih (h.step hc (he e (by simp)) hs) (fun e' he' => he e' (by simp [he'])) hr
    · cases hr

/-- As long as the receiver has not decided, both threads of every port are alive. -/
theorem Going.alive {c : ECfg} {mb : Int} {del : Bool} {S : ESys} (h : Going c mb del S) (hd : S.dec = false) {t : Nat} (ht : t < c.n) :
    EAlive c t S where
  lt := ht
  snd ok hk := by
    cases ok with
    | false => exact h.son t hk
    | true =>
      have := (h.good.p.thr t).dn (.inr (.inr (.inl hk)))
      simp only [ESys.ctx] at this
      rw [hd] at this; cases this
  rcv1 := (h.ron t).1
  rcv2 hk := by
    have := (h.ron t).2 (.inr (.inr hk))
    rw [hd] at this; cases this

/-! ### A transfer whose only connection is lost for good -/

/-- All sender threads that ever started have ended with an error and nothing is on the way. -/
structure EDead (S : ESys) : Prop where
  hd : ∀ v, (S.port v).hd = none ∨ (S.port v).hd = some []
  sph : ∀ v, (S.port v).sph = .ended false ∨ (S.port v).sph = .start
  zero : (S.port 0).sph = .ended false

theorem EDead.set {S : ESys} (h : EDead S) (t : Nat) {p : Port} (h1 : p.hd = none ∨ p.hd = some []) (h2 : p.sph = (S.port t).sph) :
    EDead (S.setP t p) := by
  have hp : ∀ v, (S.setP t p).port v = if v = t then p else S.port v := fun v => upd_apply ..
  refine ⟨fun v => ?_, fun v => ?_, ?_⟩
  · rw [hp]; split
    · exact h1
    · exact h.hd v
  · rw [hp]; split
    · rename_i e; rw [h2, ← e]; exact h.sph v
    · exact h.sph v
  · rw [hp]; split
    · rename_i e; rw [h2, ← e]; exact h.zero
    · exact h.zero

theorem reply_hd (p : Port) (m : DCmd) : (p.reply m).hd = p.hd ∧ (p.reply m).sph = p.sph := by
  unfold Port.reply; split <;> exact ⟨rfl, rfl⟩

theorem EDead.stepR {c : ECfg} {S S' : ESys} {e : WEv} (h : EDead S) (hs : eStepR c S e = some S') :
    EDead S' ∧ S'.landed = S.landed := by
  have q : ∀ {S1 S2 : ESys} {e : REvent}, EDead S1 → S1.landed = S.landed → S1.rcv? c e = some S2 → EDead S2 ∧ S2.landed = S.landed := by
    intro S1 S2 e hc hl h
    obtain ⟨r', -, rfl⟩ := rcv?_some h
    exact ⟨⟨hc.hd, hc.sph, hc.zero⟩, hl⟩
  have hr : ∀ t m, EDead (S.setP t ((S.port t).reply m)) := fun t m =>
    h.set t (by rw [(reply_hd _ m).1]; exact h.hd t) (reply_hd _ m).2
  have hd : ∀ t l, EDead (S.setP t ((S.port t).drop l)) := fun t l => h.set t (.inl rfl) rfl
  have hsh : ∀ t l, EDead (S.setP t ((S.port t).shut l)) := fun t l => h.set t (.inl rfl) rfl
  cases e with
  | accept1 t =>
    simp only [eStepR] at hs
    split at hs
    · split at hs
      · cases hs; exact ⟨h.set t (h.hd t) rfl, rfl⟩
      · split at hs
        · cases hs; exact ⟨h.set t (.inr rfl) rfl, rfl⟩
        · cases hs
    · cases hs
  | accept t ok =>
    cases ok with
    | true =>
      simp only [eStepR, if_true] at hs
      split at hs
      · refine q (S1 := S.setP t _) (h.set t ?_ ?_) rfl hs
        · rw [(reply_hd _ _).1]; exact .inr rfl
        · rw [(reply_hd _ _).2]
      · cases hs
    | false =>
      simp only [eStepR, Bool.false_eq_true, if_false] at hs
      exact q (hsh t _) rfl hs
  | recv t =>
    simp only [eStepR] at hs
    split at hs
    · rename_i hh
      rcases h.hd t with k | k <;> rw [k] at hh <;> cases hh
    · cases hs
  | recvPart t w fatal =>
    simp only [eStepR] at hs
    split at hs
    · rename_i hh
      rcases h.hd t with k | k <;> rw [k] at hh <;> cases hh
    · cases hs
  | recvDone t =>
    simp only [eStepR] at hs
    split at hs
    · rename_i hh
      rcases h.hd t with k | k <;> rw [k] at hh <;> cases hh
    · cases hs
  | lost t reset fatal =>
    simp only [eStepR] at hs
    split at hs
    · exact q (hsh t _) rfl hs
    · split at hs
      · exact q (hd t _) rfl hs
      · cases hs
  | verify t =>
    simp only [eStepR] at hs
    split at hs
    · cases hs; exact ⟨h.set t (h.hd t) rfl, rfl⟩
    · cases hs
  | query t =>
    simp only [eStepR] at hs
    split at hs
    · rename_i S1 hS1
      cases hs
      obtain ⟨k1, k2⟩ := q h rfl hS1
      exact ⟨⟨k1.hd, k1.sph, k1.zero⟩, k2⟩
    · cases hs
  | sendGlobal t ok =>
    cases ok with
    | true => simp only [eStepR, if_true] at hs; exact q (hr t _) rfl hs
    | false => simp only [eStepR, Bool.false_eq_true, if_false] at hs; exact q (hd t _) rfl hs
  | sendWait t ok =>
    cases ok with
    | true =>
      simp only [eStepR, if_true] at hs
      split at hs
      · cases hs; exact ⟨hr t _, rfl⟩
      · cases hs
    | false => simp only [eStepR, Bool.false_eq_true, if_false] at hs; exact q (hd t _) rfl hs
  | writeDone t =>
    simp only [eStepR] at hs
    split at hs
    · cases hs; exact ⟨hr t _, rfl⟩
    · cases hs
  | doneSent t ok =>
    cases ok with
    | true => 
      simp only [eStepR, if_true] at hs
      refine q ?_ ?_ hs
      · exact h.set t (h.hd t) rfl
      · rfl
    | false => simp only [eStepR, Bool.false_eq_true, if_false] at hs; exact q (hd t _) rfl hs
  | failed t =>
    simp only [eStepR] at hs
    refine q ?_ ?_ hs
    · exact ⟨h.hd, h.sph, h.zero⟩
    · rfl
  | silentEnd t =>
    simp only [eStepR] at hs
    have := hsh t (S.port t).last
    refine q ?_ ?_ hs
    · exact ⟨this.hd, this.sph, this.zero⟩
    · rfl
  | vanish t =>
    simp only [eStepR] at hs
    split at hs
    · cases hs; exact ⟨h.set t (.inl rfl) rfl, rfl⟩
    · cases hs
  | vanishMore t =>
    simp only [eStepR] at hs
    split at hs
    · cases hs; exact ⟨h.set t (h.hd t) rfl, rfl⟩
    · cases hs
  | _ => simp only [eStepR] at hs; exact q h rfl hs

theorem EDead.stepS {c : ECfg} (hn : c.n ≤ 1) {S S' : ESys} {e : SEv} (hi : PInv c S) (h : EDead S) (hs : eStepS c S e = some S') :
    EDead S' ∧ S'.landed = S.landed := by
  have q : ∀ {S1 S2 : ESys} {e : SEvent}, EDead S1 → S1.landed = S.landed → S1.snd? e = some S2 → EDead S2 ∧ S2.landed = S.landed := by
    intro S1 S2 e hc hl h
    obtain ⟨r', -, rfl⟩ := snd?_some h
    exact ⟨⟨hc.hd, hc.sph, hc.zero⟩, hl⟩
  have no : ∀ {t : Nat} {p : SPh}, (S.port t).sph = p → p ≠ .ended false → p ≠ .start → False := by
    intro t p h1 h2 h3
    rcases h.sph t with k | k
    · exact h2 (h1 ▸ k)
    · exact h3 (h1 ▸ k)
  have lt0 : ∀ {t : Nat} {x : SThread}, S.snd.threads[t]? = some x → t = 0 := by
    intro t x hx
    obtain ⟨h1, -⟩ := List.getElem?_eq_some_iff.1 hx
    rw [hi.len] at h1
    omega
  cases e with
  | connect t =>
    simp only [eStepS] at hs
    split at hs
    · rename_i hlt
      have : t = 0 := by omega
      subst this
      rw [h.zero] at hs
      cases hs
    · cases hs
  | pop t x =>
    simp only [eStepS] at hs
    split at hs
    · rename_i hp; exact (no hp (by simp) (by simp)).elim
    · cases hs
  | write t n =>
    simp only [eStepS] at hs
    split at hs
    · split at hs
      · rename_i hp; exact (no hp.1 (by simp) (by simp)).elim
      · cases hs
    · cases hs
  | sent t o =>
    simp only [eStepS] at hs
    split at hs
    · rename_i hh x hth
      have := (hi.loc t).busy (.inr (by rw [thr_of_some hth]; rfl))
      exact (no this (by simp) (by simp)).elim
    · cases hs
  | sendDone t =>
    simp only [eStepS] at hs
    split at hs
    · split at hs
      · rename_i hp; exact (no hp.1 (by simp) (by simp)).elim
      · cases hs
    · cases hs
  | lose t =>
    simp only [eStepS] at hs
    split at hs
    · split at hs
      · rename_i hp
        rcases hp with hp | hp | hp <;> exact (no hp (by simp) (by simp)).elim
      · cases hs
    · cases hs
  | doneEnd t ok =>
    simp only [eStepS] at hs
    split at hs
    · rename_i hp; exact (no hp (by simp) (by simp)).elim
    · cases hs
  | giveUp t =>
    simp only [eStepS] at hs
    split at hs
    · rename_i hth
      have := lt0 hth
      subst this
      rw [h.zero] at hs
      simp at hs
    · cases hs
  | globalGo t =>
    simp only [eStepS] at hs
    split at hs
    · rename_i hp; exact (no hp (by simp) (by simp)).elim
    · cases hs
  | global t =>
    simp only [eStepS] at hs
    split at hs
    · rename_i hp; exact (no hp (by simp) (by simp)).elim
    · cases hs
  | errDone t =>
    simp only [eStepS] at hs
    split at hs
    · rename_i hp; exact (no hp (by simp) (by simp)).elim
    · cases hs
  | readCp t =>
    simp only [eStepS] at hs
    split at hs
    · rename_i hp _; exact (no hp (by simp) (by simp)).elim
    · cases hs
  | readWait t =>
    simp only [eStepS] at hs
    split at hs
    · rename_i hp _; exact (no hp (by simp) (by simp)).elim
    · cases hs
  | readErr t =>
    simp only [eStepS] at hs
    split at hs
    · rename_i hp _; exact (no hp (by simp) (by simp)).elim
    · cases hs
  | readDone t =>
    simp only [eStepS] at hs
    split at hs
    · rename_i hp _; exact (no hp (by simp) (by simp)).elim
    · cases hs
  | errLost t =>
    simp only [eStepS] at hs
    split at hs
    · rename_i hp _ _; exact (no hp (by simp) (by simp)).elim
    · cases hs
  | exit t =>
    simp only [eStepS] at hs
    split at hs
    · exact q h rfl hs
    · cases hs
  | setPrev i =>
    simp only [eStepS] at hs
    split at hs
    · cases hs
    · exact q h rfl hs
  | _ => simp only [eStepS] at hs; exact q h rfl hs

theorem EDead.run {c : ECfg} (hn : c.n ≤ 1) : ∀ {es : List EEvent} {S S' : ESys}, PInv c S → EDead S → eRun c S es = some S' →
    EDead S' ∧ S'.landed = S.landed := by
  intro es
  induction es with
  | nil => intro S S' _ h hr; simp only [eRun, Option.some.injEq] at hr; exact hr ▸ ⟨h, rfl⟩
  | cons e es ih =>
    intro S S' hi h hr
    simp only [eRun] at hr
    split at hr
    · rename_i S1 hs
      cases e with
      | s e =>
        obtain ⟨k1, k2⟩ := h.stepS hn hi hs
        obtain ⟨k3, k4⟩ := ih (hi.stepS hs) k1 hr
        exact ⟨k3, k4.trans k2⟩
      | v e =>
        obtain ⟨k1, k2⟩ := h.stepR hs
        obtain ⟨k3, k4⟩ := ih (hi.stepR hs) k1 hr
        exact ⟨k3, k4.trans k2⟩
    · cases hr

end Wdt
