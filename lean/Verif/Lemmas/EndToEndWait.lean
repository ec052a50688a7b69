import Verif.Lemmas.EndToEndRun
/-
Which checkpoints a sender thread has to handle.
-/
namespace Wdt

/-- The checkpoints of an ERR command on its way to the sender thread of this port, or that it
handles. -/
def Port.ToHandle (p : Port) (l : List (Nat × Checkpoint)) : Prop := .err l ∈ p.inbox ∨ ∃ w, p.sph = .processing l w

/-- `u` is in the list, and before `t`, if `t` is in the list. -/
def Before (cps : List Nat) (u t : Nat) : Prop := ∃ a b, cps = a ++ b ∧ u ∈ a ∧ t ∉ a

/-- A sender thread is only told about receiver threads that failed before its own. -/
def WaitInv (S : ESys) : Prop := ∀ t l, (S.port t).ToHandle l → ∀ x ∈ l, Before S.rcv.cps x.1 t

theorem Before.append {cps : List Nat} {u t : Nat} (h : Before cps u t) (m : List Nat) : Before (cps ++ m) u t := by
  obtain ⟨a, b, rfl, h1, h2⟩ := h
  exact ⟨a, b ++ m, by simp, h1, h2⟩

theorem Before.lt {cps : List Nat} {u t : Nat} (h : Before cps u t) : cps.idxOf u < cps.idxOf t := by
  obtain ⟨a, b, rfl, h1, h2⟩ := h
  rw [List.idxOf_append_of_mem h1, List.idxOf_append_of_notMem h2]
  have := List.idxOf_lt_length_of_mem h1
  omega

/-- Nothing new to handle. -/
def Port.Less (p p' : Port) : Prop := ∀ l, p'.ToHandle l → ∃ m, p.ToHandle m ∧ l ⊆ m

theorem Port.Less.refl (p : Port) : p.Less p := fun l h => ⟨l, h, fun _ hx => hx⟩

theorem less_upd {S : ESys} {t : Nat} {p' : Port} (h : (S.port t).Less p') : ∀ v, (S.port v).Less (upd S.port t p' v) := by
  intro v
  simp only [upd_apply]
  split
  · rename_i hv; subst hv; exact h
  · exact .refl _

/-- Same mail, and not starting to handle a list. -/
theorem less_of {p p' : Port} (h1 : p'.inbox ⊆ p.inbox) (h2 : ∀ l w, p'.sph = .processing l w → ∃ m, p.ToHandle m ∧ l ⊆ m) :
    p.Less p' := by
  rintro l (h | ⟨w, h⟩)
  · exact ⟨l, .inl (h1 h), fun _ hx => hx⟩
  · exact h2 l w h

theorem less_same {p p' : Port} (h1 : p'.inbox ⊆ p.inbox) (h2 : p'.sph = p.sph) : p.Less p' :=
  less_of h1 fun l w h => ⟨l, .inr ⟨w, h2 ▸ h⟩, fun _ hx => hx⟩

theorem less_none {p p' : Port} (h1 : p'.inbox ⊆ p.inbox) (h2 : ∀ l w, p'.sph ≠ .processing l w) : p.Less p' :=
  less_of h1 fun l w h => absurd h (h2 l w)

theorem less_leave {p : Port} {ph : SPh} (h2 : ∀ l w, ph ≠ .processing l w) : p.Less (p.leave ph) :=
  less_none (by simp [Port.leave]) h2

theorem less_put {p : Port} {m : UCmd} : p.Less (p.put m) := by
  unfold Port.put
  split
  · exact less_same (fun _ h => h) rfl
  · exact .refl _

theorem WaitInv.of_less {S S' : ESys} (h : WaitInv S) (h1 : S.rcv.cps <+: S'.rcv.cps) (h2 : ∀ v, (S.port v).Less (S'.port v)) :
    WaitInv S' := by
  intro t l hl x hx
  obtain ⟨m, hm, hs⟩ := h2 t l hl
  obtain ⟨r, hr⟩ := h1
  rw [← hr]
  exact (h t m hm x (hs hx)).append r

theorem WaitInv.stepS {c : ECfg} {S S' : ESys} {e : SEv} (hw : WaitInv S) (h : eStepS c S e = some S') : WaitInv S' := by
  have key : S'.rcv = S.rcv ∧ ∀ v, (S.port v).Less (S'.port v) := by
    have q : ∀ {S1 S2 : ESys} {e : SEvent}, S1.snd? e = some S2 → S2.rcv = S1.rcv ∧ S2.port = S1.port := by
      intro S1 S2 e h
      obtain ⟨s', -, rfl⟩ := snd?_some h
      exact ⟨rfl, rfl⟩
    have fin : ∀ {t : Nat} {p' : Port}, S'.rcv = S.rcv ∧ S'.port = upd S.port t p' → (S.port t).Less p' →
        S'.rcv = S.rcv ∧ ∀ v, (S.port v).Less (S'.port v) := by
      intro t p' h1 h2
      exact ⟨h1.1, by rw [h1.2]; exact less_upd h2⟩
    have same : S'.rcv = S.rcv ∧ S'.port = S.port → S'.rcv = S.rcv ∧ ∀ v, (S.port v).Less (S'.port v) :=
      fun h => ⟨h.1, by rw [h.2]; exact fun v => .refl _⟩
    cases e with
    | discover f => exact same (q h)
    | finishDiscovery => exact same (q h)
    | setPrev infos =>
      simp only [eStepS] at h
      split at h
      · cases h
      · exact same (q h)
    | connect t =>
      simp only [eStepS] at h
      split at h
      · split at h
        · cases h
          exact fin (t := t) ⟨rfl, rfl⟩ (less_none (fun _ h => h) (by simp))
        · cases h
          exact fin (t := t) ⟨rfl, rfl⟩ (less_none (fun _ h => h) (by simp))
        · cases h
      · cases h
    | pop t x =>
      simp only [eStepS] at h
      split at h
      · have := q h
        exact same ⟨this.1, this.2⟩
      · cases h
    | openOk t => exact same (q h)
    | openFail t => exact same (q h)
    | write t n =>
      simp only [eStepS] at h
      split at h
      · split at h
        · cases h
          refine fin (t := t) ⟨rfl, rfl⟩ ?_
          intro l hl
          exact less_put l hl
        · cases h
      · cases h
    | sent t o =>
      simp only [eStepS] at h
      split at h
      · cases o with
        | ok n =>
          simp only at h
          split at h
          · refine fin (q h) ?_
            split
            · exact less_leave (by simp)
            · exact less_same (fun _ h => h) rfl
          · cases h
        | fail n =>
          simp only [if_true] at h
          refine fin (q h) ?_
          split <;> exact less_leave (by simp)
      · cases h
    | sendDone t =>
      simp only [eStepS] at h
      split at h
      · split at h
        · cases h
          refine fin (t := t) ⟨rfl, rfl⟩ (less_none ?_ (by simp))
          simp only [Port.put]; split <;> simp
        · cases h
      · cases h
    | lose t =>
      simp only [eStepS] at h
      split at h
      · split at h
        · cases h
          exact fin (t := t) ⟨rfl, rfl⟩ (less_leave (by simp))
        · cases h
      · cases h
    | readCp t =>
      simp only [eStepS] at h
      split at h
      · rename_i cp rest hp hin
        refine fin (q h) ?_
        split
        · exact less_leave (by simp)
        · exact less_none (by rw [hin]; simp) (by simp)
      · cases h
    | readWait t =>
      simp only [eStepS] at h
      split at h
      · rename_i rest hp hin
        exact fin (q h) (less_same (by rw [hin]; simp) rfl)
      · cases h
    | readErr t =>
      simp only [eStepS] at h
      split at h
      · rename_i l rest hp hin
        refine fin (q h) (less_of (by rw [hin]; simp) ?_)
        intro l' w hl
        simp only [SPh.processing.injEq] at hl
        exact ⟨l, .inl (by rw [hin]; simp), by rw [hl.1]; exact fun _ h => h⟩
      · cases h
    | errLost t =>
      simp only [eStepS] at h
      split at h
      · exact fin (q h) (less_leave (by simp))
      · cases h
    | global t =>
      simp only [eStepS] at h
      split at h
      · rename_i u cp l hp
        refine fin (q h) (less_of (fun _ h => h) ?_)
        intro l' w hl
        simp only [SPh.processing.injEq] at hl
        exact ⟨(u, cp) :: l, .inr ⟨_, hp⟩, by rw [hl.1]; exact fun _ h => h⟩
      · cases h
    | globalGo t =>
      simp only [eStepS] at h
      split at h
      · rename_i u cp l hp
        split at h
        · cases h
        · cases h
          refine fin (t := t) ⟨rfl, rfl⟩ (less_of (fun _ h => h) ?_)
          intro l' w hl
          simp only [SPh.processing.injEq] at hl
          exact ⟨(u, cp) :: l, .inr ⟨_, hp⟩, by rw [← hl.1]; simp⟩
      · cases h
    | errDone t =>
      simp only [eStepS] at h
      split at h
      · cases h
        exact fin (t := t) ⟨rfl, rfl⟩ (less_none (fun _ h => h) (by simp))
      · cases h
    | readDone t =>
      simp only [eStepS] at h
      split at h
      · rename_i rest hp hin
        exact fin (q h) (less_none (by rw [hin]; simp) (by simp))
      · cases h
    | doneEnd t ok =>
      simp only [eStepS] at h
      split at h
      · cases h
        exact fin (t := t) ⟨rfl, rfl⟩ (less_leave (by cases ok <;> simp))
      · cases h
    | giveUp t =>
      simp only [eStepS] at h
      split at h
      · split at h
        · cases h
          exact fin (t := t) ⟨rfl, rfl⟩ (less_leave (by simp))
        · cases h
      · cases h
    | exit t =>
      simp only [eStepS] at h
      split at h
      · exact same (q h)
      · cases h
  exact hw.of_less (by rw [key.1]; exact List.prefix_refl _) key.2

/-- What the receiver adds. -/
def Adds (S S' : ESys) : Prop := S.rcv.cps <+: S'.rcv.cps ∧ ∀ v, (S'.port v).sph = (S.port v).sph ∧
  ∀ l, .err l ∈ (S'.port v).inbox → .err l ∈ (S.port v).inbox ∨
    ((S.rcv.th v).phase = .sendGlobal ∧ ∀ x ∈ l, x.1 ∈ S.rcv.cps)

theorem err_reply {p : Port} {m : DCmd} (hm : ∀ l, m ≠ .err l) {l : List (Nat × Checkpoint)} (h : .err l ∈ (p.reply m).inbox) :
    .err l ∈ p.inbox := by
  unfold Port.reply at h
  split at h
  · simp only [List.mem_append, List.mem_singleton] at h
    exact h.resolve_right fun h => hm l h.symm
  · exact h

theorem adds_of {S S' : ESys} {t : Nat} {p' : Port} (h1 : S.rcv.cps <+: S'.rcv.cps) (h2 : S'.port = upd S.port t p')
    (h3 : p'.sph = (S.port t).sph) (h4 : ∀ l, .err l ∈ p'.inbox → .err l ∈ (S.port t).inbox) : Adds S S' := by
  refine ⟨h1, fun v => ?_⟩
  rw [h2]
  simp only [upd_apply]
  split
  · rename_i hv; subst hv; exact ⟨h3, fun l hl => .inl (h4 l hl)⟩
  · exact ⟨rfl, fun l hl => .inl hl⟩

theorem adds_same {S S' : ESys} (h1 : S.rcv.cps <+: S'.rcv.cps) (h2 : S'.port = S.port) : Adds S S' :=
  ⟨h1, fun v => by rw [h2]; exact ⟨rfl, fun l hl => .inl hl⟩⟩

theorem rStep_cps {n : Nat} {s s' : RFin} {e : REvent} (h : rStep n s e = some s') : s.cps <+: s'.cps := by
  cases e <;> simp only [rStep] at h <;> split at h <;> first
    | (cases h; done)
    | (cases h; first | exact List.prefix_refl _ | exact List.prefix_append _ _)
    | (split at h <;> cases h <;> exact List.prefix_refl _)

theorem eStepR_adds {c : ECfg} {S S' : ESys} {e : WEv} (h : eStepR c S e = some S') : Adds S S' := by
  have q : ∀ {S1 S2 : ESys} {e : REvent}, S1.rcv? c e = some S2 → S1.rcv.cps <+: S2.rcv.cps ∧ S2.port = S1.port := by
    intro S1 S2 e h
    obtain ⟨r', h1, rfl⟩ := rcv?_some h
    exact ⟨rStep_cps h1, rfl⟩
  have same : ∀ {e : REvent}, S.rcv? c e = some S' → Adds S S' := fun h => adds_same (q h).1 (q h).2
  have fin : ∀ {e : REvent} {t : Nat} {p' : Port} {L : List Landed} {si : Bool},
      ({ S.setP t p' with landed := L, silent := si } : ESys).rcv? c e = some S' →
      p'.sph = (S.port t).sph → (∀ l, .err l ∈ p'.inbox → .err l ∈ (S.port t).inbox) → Adds S S' :=
    fun h h3 h4 => adds_of (q h).1 (q h).2 h3 h4
  have fin0 : ∀ {t : Nat} {p' : Port}, S' = S.setP t p' →
      p'.sph = (S.port t).sph → (∀ l, .err l ∈ p'.inbox → .err l ∈ (S.port t).inbox) → Adds S S' :=
    fun h h3 h4 => by subst h; exact adds_of (List.prefix_refl _) rfl h3 h4
  cases e with
  | accept1 t =>
    simp only [eStepR] at h
    split at h
    · split at h
      · cases h; exact fin0 (t := t) rfl rfl fun _ h => h
      · split at h
        · cases h; exact fin0 (t := t) rfl rfl fun _ h => h
        · cases h
    · cases h
  | accept t ok =>
    simp only [eStepR] at h
    split at h
    · split at h
      · exact fin h (reply_frame _ _).1 fun l hl => by have := err_reply (by simp) hl; exact this
      · cases h
    · exact fin h rfl fun _ h => h
  | recv t =>
    simp only [eStepR] at h
    split at h
    · split at h
      · refine fin h ?_ ?_ <;> split <;> first | rfl | exact fun _ h => h
      · cases h
    · cases h
  | recvPart t w fatal =>
    simp only [eStepR] at h
    split at h
    · split at h
      · split at h
        · rename_i S1 h1
          have a1 := q h1
          have a2 := q h
          refine adds_of (t := t) (a1.1.trans a2.1) (a2.2.trans a1.2) ?_ ?_ <;> split <;> first | rfl | exact fun _ h => h
        · cases h
      · cases h
    · cases h
  | recvDone t =>
    simp only [eStepR] at h
    split at h
    · exact fin h rfl fun _ h => h
    · cases h
  | lost t reset fatal =>
    simp only [eStepR] at h
    split at h
    · exact fin h rfl fun _ h => h
    · split at h
      · exact fin h rfl fun _ h => h
      · cases h
  | verify t =>
    simp only [eStepR] at h
    split at h
    · cases h; exact fin0 (t := t) rfl rfl fun _ h => h
    · cases h
  | markWaiting t => exact same h
  | look t => exact same h
  | resume t => exact same h
  | query t =>
    simp only [eStepR] at h
    split at h
    · rename_i S1 h1
      cases h
      exact adds_same (q h1).1 (q h1).2
    · cases h
  | finish t => exact same h
  | sendGlobal t ok =>
    simp only [eStepR] at h
    obtain ⟨r', h1, rfl⟩ := rcv?_some h
    cases ok with
    | false => exact adds_of (t := t) (rStep_cps h1) rfl rfl fun _ h => h
    | true =>
      refine ⟨rStep_cps h1, fun v => ?_⟩
      have hph : (S.rcv.th t).phase = .sendGlobal := (rs_globalWritten_true h1).1.2
      simp only [ESys.setP, upd_apply, if_true]
      split
      · rename_i hv; subst hv
        refine ⟨(reply_frame _ _).1, fun l hl => ?_⟩
        unfold Port.reply at hl
        split at hl
        · simp only [List.mem_append, List.mem_singleton, DCmd.err.injEq] at hl
          refine hl.imp id fun h => ⟨hph, ?_⟩
          subst h
          intro x hx
          obtain ⟨u, hu, rfl⟩ := List.mem_map.1 hx
          exact List.mem_of_mem_drop (List.mem_of_mem_take hu)
        · exact .inl hl
      · exact ⟨rfl, fun l hl => .inl hl⟩
  | sendWait t ok =>
    simp only [eStepR] at h
    split at h
    · split at h
      · cases h
        exact fin0 (t := t) rfl (reply_frame _ _).1 fun l hl => err_reply (by simp) hl
      · cases h
    · exact fin h rfl fun _ h => h
  | writeDone t =>
    simp only [eStepR] at h
    split at h
    · cases h
      exact fin0 (t := t) rfl (reply_frame _ _).1 fun l hl => err_reply (by simp) hl
    · cases h
  | doneSent t ok =>
    simp only [eStepR] at h
    refine fin h ?_ ?_ <;> split <;> first | rfl | exact fun _ h => h
  | failed t =>
    simp only [eStepR] at h
    exact adds_same (q h).1 (q h).2
  | silentEnd t =>
    simp only [eStepR] at h
    exact fin h rfl fun _ h => h
  | vanish t =>
    simp only [eStepR] at h
    split at h
    · cases h; exact fin0 (t := t) rfl rfl fun _ h => h
    · cases h
  | vanishMore t =>
    simp only [eStepR] at h
    split at h
    · cases h; exact fin0 (t := t) rfl rfl fun _ h => h
    · cases h

theorem WaitInv.stepR {c : ECfg} {S S' : ESys} {e : WEv} (hi : PInv c S) (hw : WaitInv S) (h : eStepR c S e = some S') :
    WaitInv S' := by
  obtain ⟨⟨r, hr⟩, h2⟩ := eStepR_adds h
  intro t l hl x hx
  rw [← hr]
  obtain ⟨a1, a2⟩ := h2 t
  have old : (S.port t).ToHandle l → Before (S.rcv.cps ++ r) x.1 t := fun h => (hw t l h x hx).append r
  rcases hl with hl | ⟨w, hl⟩
  · rcases a2 l hl with hl | ⟨hp, hl⟩
    · exact old (.inl hl)
    · refine ⟨S.rcv.cps, r, rfl, hl x hx, fun hm => ?_⟩
      have := ((hi.loc t).failed hm).1
      rw [hp] at this; cases this
  · exact old (.inr ⟨w, a1 ▸ hl⟩)

theorem WaitInv.init (c : ECfg) (mb : Int) (del : Bool) : WaitInv (ESys.init c mb del) := by
  rintro t l (h | ⟨w, h⟩) <;> simp [ESys.init] at h

theorem wait_run {c : ECfg} {es : List EEvent} : ∀ {S S' : ESys}, PInv c S → WaitInv S → eRun c S es = some S' → WaitInv S' := by
  induction es with
  | nil => intro S S' _ hw h; simp only [eRun, Option.some.injEq] at h; exact h ▸ hw
  | cons e es ih =>
    intro S S' hi hw h
    simp only [eRun] at h
    split at h
    · rename_i S1 h1
      cases e with
      | s e => exact ih (hi.stepS h1) (hw.stepS h1) h
      | v e => exact ih (hi.stepR h1) (hw.stepR hi h1) h
    · cases h

end Wdt
