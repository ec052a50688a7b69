import Verif.Lemmas.EndToEndStop
/-
Executions in which no receiver thread gives up.
-/
namespace Wdt

/-- No checkpoint of a failed thread, no thread that ended silently, no refused checkpoint. -/
def Calm (S : ESys) : Prop := S.rcv.cps = [] ∧ S.silent = false ∧ S.refused = false

theorem rStep_cps_same {n : Nat} {s s' : RFin} {e : REvent} (he : ∀ t, e ≠ .failed t) (h : rStep n s e = some s') :
    s'.cps = s.cps := by
  cases e <;> first
    | exact absurd rfl (he _)
    | (simp only [rStep] at h
       split at h <;> first
        | (cases h; done)
        | (cases h; rfl)
        | (split at h <;> cases h <;> rfl))

theorem Calm.stepR {c : ECfg} {S S' : ESys} {e : WEv} (hc : Calm S) (h1 : ∀ t, e ≠ .failed t) (h2 : ∀ t, e ≠ .silentEnd t)
    (h : eStepR c S e = some S') : Calm S' := by
  have q : ∀ {S1 S2 : ESys} {e : REvent}, Calm S1 → (∀ t, e ≠ .failed t) → S1.rcv? c e = some S2 → Calm S2 := by
    intro S1 S2 e hc he h
    obtain ⟨r', h1, rfl⟩ := rcv?_some h
    exact ⟨(rStep_cps_same he h1).trans hc.1, hc.2⟩
  cases e with
  | failed t => exact absurd rfl (h1 t)
  | silentEnd t => exact absurd rfl (h2 t)
  | recvPart t w fatal =>
    simp only [eStepR] at h
    split at h
    · split at h
      · split at h
        · rename_i S1 hS1
          refine q (q ?_ (by simp) hS1) (fun t => by split <;> simp) h
          exact hc
        · cases h
      · cases h
    · cases h
  | query t =>
    simp only [eStepR] at h
    split at h
    · rename_i S1 hS1
      cases h
      have := q (e := .query t) hc (by simp) hS1
      exact this
    · cases h
  | doneSent t ok =>
    simp only [eStepR] at h
    exact q (S1 := S.setP t _) hc (by simp) h
  | sendGlobal t ok =>
    simp only [eStepR] at h
    exact q (S1 := S.setP t _) hc (by simp) h
  | recv t =>
    simp only [eStepR] at h
    split at h
    · split at h
      · exact q (S1 := { S.setP t _ with landed := _ }) hc (by simp) h
      · cases h
    · cases h
  | _ =>
    simp only [eStepR] at h
    first
      | exact q hc (by simp) h
      | (repeat' split at h
         all_goals first
          | (cases h; done)
          | (cases h; exact hc)
          | (refine q ?_ (by simp) h; exact hc))

theorem Calm.stepS {c : ECfg} {S S' : ESys} {e : SEv} (hi : PInv c S) (hc : Calm S) (h : eStepS c S e = some S') : Calm S' := by
  have q : ∀ {S1 S2 : ESys} {e : SEvent}, Calm S1 → S1.snd? e = some S2 → Calm S2 := by
    intro S1 S2 e hc h
    obtain ⟨s', -, rfl⟩ := snd?_some h
    exact hc
  cases e with
  | global t =>
    simp only [eStepS] at h
    split at h
    · rename_i u cp l hp
      have := ((hi.thr t).pr1 _ _ hp (u, cp) (by simp)).1
      simp only [ESys.ctx, hc.1] at this
      simp at this
    · cases h
  | sent t o =>
    simp only [eStepS] at h
    split at h
    · rename_i hh x _
      cases o with
      | ok k =>
        simp only at h
        by_cases hw : decide ((S.port t).wrote = some x.size) = true
        · rw [if_pos hw] at h; exact q (S1 := S.setP t _) hc h
        · rw [if_neg hw] at h; cases h
      | fail k =>
        simp only [if_true] at h
        exact q (S1 := S.setP t _) hc h
    · cases h
  | readCp t =>
    simp only [eStepS] at h
    split at h
    · exact q (S1 := S.setP t _) hc h
    · cases h
  | _ =>
    simp only [eStepS] at h
    first
      | exact q hc h
      | (repeat' split at h
         all_goals first
          | (cases h; done)
          | (cases h; exact hc)
          | (refine q ?_ h; exact hc))

theorem Calm.run {c : ECfg} {es : List EEvent} : ∀ {S S' : ESys}, PInv c S → Calm S →
    (∀ t, EEvent.v (.failed t) ∉ es) → (∀ t, EEvent.v (.silentEnd t) ∉ es) → eRun c S es = some S' → Calm S' := by
  induction es with
  | nil => intro S S' _ hw _ _ h; simp only [eRun, Option.some.injEq] at h; exact h ▸ hw
  | cons e es ih =>
    intro S S' hi hw h1 h2 h
    simp only [eRun] at h
    have t1 : ∀ t, EEvent.v (.failed t) ∉ es := fun t ht => h1 t (List.mem_cons_of_mem _ ht)
    have t2 : ∀ t, EEvent.v (.silentEnd t) ∉ es := fun t ht => h2 t (List.mem_cons_of_mem _ ht)
    split at h
    · rename_i S1 hs
      cases e with
      | s e => exact ih (hi.stepS hs) (hw.stepS hi hs) t1 t2 h
      | v e =>
        exact ih (hi.stepR hs) (hw.stepR (fun t he => h1 t (by simp [he])) (fun t he => h2 t (by simp [he])) hs) t1 t2 h
    · cases h

end Wdt
