import Verif.Model.FileCreator
/-
C44: several threads that receive blocks of the same file.
-/
namespace Wdt

/-- How often a file was opened and sized. -/
def sizedCount (q : Nat) : List FEv → Nat
  | [] => 0
  | .sized q' _ _ :: es => (if q' = q then 1 else 0) + sizedCount q es
  | _ :: es => sizedCount q es

theorem sizedCount_append (q : Nat) (a b : List FEv) : sizedCount q (a ++ b) = sizedCount q a + sizedCount q b := by
  induction a with
  | nil => simp [sizedCount]
  | cons e a ih => cases e <;> simp only [List.cons_append, sizedCount, ih] <;> omega

/-- The file that the thread opens and sizes, or has and not yet said so. -/
def FPc.creates : FPc → Option Nat
  | .creating q => some q
  | .created q _ => some q
  | _ => none

/-- The file about which the thread is about to notify. -/
def FPc.tells : FPc → Option Nat
  | .notifying q _ => some q
  | _ => none

/-- The thread waits, or is about to. -/
def FPc.sleeps : FPc → Option (Nat × Nat)
  | .asleep q t => some (q, t)
  | .toSleep q t => some (q, t)
  | _ => none

/-- The thread is about to look at the status. -/
def FPc.looks : FPc → Option (Nat × Nat)
  | .wanting q t => some (q, t)
  | .woken q t => some (q, t)
  | .checking q t => some (q, t)
  | _ => none

/-- The thread holds the mutex. -/
def FPc.holds : FPc → Bool
  | .checking _ _ => true
  | .toSleep _ _ => true
  | _ => false

/-- The file was opened and sized successfully, or is said to have the right size. -/
def Ready (h : List FEv) (q : Nat) : Prop := (∃ t, .sized q t true ∈ h) ∨ .exact q ∈ h

theorem Ready.mono {h : List FEv} {q : Nat} (hr : Ready h q) (es : List FEv) : Ready (h ++ es) q := by
  rcases hr with ⟨t, h1⟩ | h1
  · exact .inl ⟨t, by simp [h1]⟩
  · exact .inr (by simp [h1])

/-- Invariant of the threads. -/
structure FcInv (s : FC) : Prop where
  a : ∀ q t, s.map q = some (.by t) → (s.pc t).creates = some q
  b : ∀ q t, (s.pc t).creates = some q → s.map q = some (.by t)
  c : ∀ w q t, (s.pc w).sleeps = some (q, t) → s.map q = some (.by t) ∨ (s.pc t).tells = some q
  d : ∀ w q t, (s.pc w).looks = some (q, t) → s.map q = some (.by t) ∨ s.map q = some .allocated ∨ s.map q = some .failed
  e : ∀ q t, (s.pc t).tells = some q → s.map q = some .allocated ∨ s.map q = some .failed
  f : ∀ w, s.mutex = some w ↔ (s.pc w).holds = true

theorem notified_spec (t : Nat) (p : FPc) :
    (p.notified t).creates = p.creates ∧ (p.notified t).tells = p.tells ∧ (p.notified t).holds = p.holds ∧
    (∀ x, (p.notified t).sleeps = some x → p.sleeps = some x ∧ (x.2 ≠ t ∨ p.holds = true)) ∧
    (∀ x, (p.notified t).looks = some x → p.looks = some x ∨ p.sleeps = some x) := by
  cases p with
  | asleep q t' =>
    simp only [FPc.notified]
    by_cases h : t' = t
    · rw [if_pos h]
      exact ⟨rfl, rfl, rfl, fun x hx => by simp [FPc.sleeps] at hx, fun x hx => .inr (by simpa [FPc.looks, FPc.sleeps] using hx)⟩
    · rw [if_neg h]
      refine ⟨rfl, rfl, rfl, fun x hx => ⟨hx, .inl ?_⟩, fun x hx => by simp [FPc.looks] at hx⟩
      simp only [FPc.sleeps, Option.some.injEq] at hx
      rw [← hx]; exact h
  | toSleep q t' => exact ⟨rfl, rfl, rfl, fun x hx => ⟨hx, .inr rfl⟩, fun x hx => .inl hx⟩
  | _ => exact ⟨rfl, rfl, rfl, fun x hx => by simp [FPc.notified, FPc.sleeps] at hx, fun x hx => .inl hx⟩

set_option maxHeartbeats 2000000 in
theorem FcInv.step {s s' : FC} {a : FAct} {es : List FEv} (h : FcInv s) (hs : s.step a = some (s', es)) : FcInv s' := by
  obtain ⟨ha, hb, hc, hd, he, hf⟩ := h
  cases a with
  | enter t q correct =>
    simp only [FC.step] at hs
    split at hs
    · rename_i hi
      simp only [Option.some.injEq, FC.enter] at hs
      split at hs
      · split at hs
        · cases hs
          constructor <;> grind [setAt, FPc.creates, FPc.tells, FPc.sleeps, FPc.looks, FPc.holds]
        · cases hs
          constructor <;> grind [setAt, FPc.creates, FPc.tells, FPc.sleeps, FPc.looks, FPc.holds]
      · cases hs
        constructor <;> grind [setAt, FPc.creates, FPc.tells, FPc.sleeps, FPc.looks, FPc.holds]
      · cases hs
        constructor <;> grind [setAt, FPc.creates, FPc.tells, FPc.sleeps, FPc.looks, FPc.holds]
      · cases hs
        constructor <;> grind [setAt, FPc.creates, FPc.tells, FPc.sleeps, FPc.looks, FPc.holds]
    · cases hs
  | go t ok =>
    simp only [FC.step, FC.go] at hs
    split at hs
    · cases hs
    · cases hs
      constructor <;> grind [setAt, FPc.creates, FPc.tells, FPc.sleeps, FPc.looks, FPc.holds]
    · cases hs
      constructor <;> grind [setAt, FPc.creates, FPc.tells, FPc.sleeps, FPc.looks, FPc.holds]
    · split at hs
      · cases hs
        rename_i q r hpc hm
        have hn := fun w => notified_spec t (s.pc w)
        have hno : ∀ w, (s.pc w).holds = false := fun w => by
          cases hx : (s.pc w).holds with
          | false => rfl
          | true => have := (hf w).2 hx; rw [hm] at this; cases this
        constructor
        · intro q' t' h
          simp only
          split
          · rename_i e; subst e; have := ha q' t' h; rw [hpc] at this; simp [FPc.creates] at this
          · rw [(hn t').1]; exact ha q' t' h
        · intro q' t' h
          simp only at h
          split at h
          · simp [FPc.creates] at h
          · rw [(hn t').1] at h; exact hb q' t' h
        · intro w q' t' h
          simp only at h ⊢
          split at h
          · simp [FPc.sleeps] at h
          · obtain ⟨h1, h2⟩ := (hn w).2.2.2.1 _ h
            have h2 : t' ≠ t := by
              rcases h2 with h2 | h2
              · exact h2
              · rw [hno w] at h2; cases h2
            rw [if_neg h2, (hn t').2.1]
            exact hc w q' t' h1
        · intro w q' t' h
          simp only at h
          split at h
          · simp [FPc.looks] at h
          · rcases (hn w).2.2.2.2 _ h with h1 | h1
            · exact hd w q' t' h1
            · rcases hc w q' t' h1 with h2 | h2
              · exact .inl h2
              · exact .inr (he q' t' h2)
        · intro q' t' h
          simp only at h
          split at h
          · simp [FPc.tells] at h
          · rw [(hn t').2.1] at h; exact he q' t' h
        · intro w
          simp only
          rw [hm]
          split
          · simp [FPc.holds]
          · rw [(hn w).2.2.1, hno w]; simp
      · cases hs
    · split at hs
      · cases hs
        constructor <;> grind [setAt, FPc.creates, FPc.tells, FPc.sleeps, FPc.looks, FPc.holds]
      · cases hs
    · split at hs
      · cases hs
        constructor <;> grind [setAt, FPc.creates, FPc.tells, FPc.sleeps, FPc.looks, FPc.holds]
      · cases hs
    · split at hs
      · cases hs
        constructor <;> grind [setAt, FPc.creates, FPc.tells, FPc.sleeps, FPc.looks, FPc.holds]
      · cases hs
        constructor <;> grind [setAt, FPc.creates, FPc.tells, FPc.sleeps, FPc.looks, FPc.holds]
      · cases hs
        constructor <;> grind [setAt, FPc.creates, FPc.tells, FPc.sleeps, FPc.looks, FPc.holds]
      · cases hs
    · cases hs
      constructor <;> grind [setAt, FPc.creates, FPc.tells, FPc.sleeps, FPc.looks, FPc.holds]
    · cases hs
    · cases hs
      constructor <;> grind [setAt, FPc.creates, FPc.tells, FPc.sleeps, FPc.looks, FPc.holds]
    · cases hs
      constructor <;> grind [setAt, FPc.creates, FPc.tells, FPc.sleeps, FPc.looks, FPc.holds]
  | wake t =>
    simp only [FC.step] at hs
    split at hs
    · cases hs
      constructor <;> grind [setAt, FPc.creates, FPc.tells, FPc.sleeps, FPc.looks, FPc.holds]
    · cases hs

theorem FcInv.init : FcInv FC.init := by
  constructor <;> intros <;> simp_all [FC.init, FPc.creates, FPc.sleeps, FPc.looks, FPc.tells, FPc.holds]

theorem FReach.inv {s : FC} {h : List FEv} (hr : FReach s h) : FcInv s := by
  induction hr with
  | init => exact FcInv.init
  | step a hr hs ih => exact ih.step hs

/-- What is known about what was observed. -/
structure HInv (s : FC) (h : List FEv) : Prop where
  none : ∀ q, s.map q = none → sizedCount q h = 0
  creating : ∀ q t, s.pc t = .creating q → sizedCount q h = 0
  le : ∀ q, sizedCount q h ≤ 1
  created : ∀ q t, s.pc t = .created q true → Ready h q
  alloc : ∀ q, s.map q = some .allocated → Ready h q
  opening : ∀ q t, s.pc t = .opening q → Ready h q
  order : ∀ pre q t ok post, h = pre ++ .opened q t ok :: post → Ready pre q

theorem HInv.order_nil {s : FC} {h : List FEv} (hi : HInv s h) (es : List FEv) (hes : ∀ q t ok, .opened q t ok ∉ es)
    (pre : List FEv) (q t : Nat) (ok : Bool) (post : List FEv) (he : h ++ es = pre ++ .opened q t ok :: post) : Ready pre q := by
  rcases List.append_eq_append_iff.1 he with ⟨x, h1, h2⟩ | ⟨x, h1, h2⟩
  · exact absurd (by rw [h2]; simp) (hes q t ok)
  · cases x with
    | nil => simp at h2; exact absurd (by rw [← h2]; simp) (hes q t ok)
    | cons y x =>
      simp only [List.cons_append, List.cons.injEq] at h2
      exact hi.order pre q t ok x (by rw [h1, h2.1])

theorem ready_of_sized (h : List FEv) (q t : Nat) : Ready (h ++ [.sized q t true]) q := .inl ⟨t, by simp⟩

theorem ready_of_exact (h : List FEv) (q : Nat) : Ready (h ++ [.exact q]) q := .inr (by simp)

set_option maxHeartbeats 2000000 in
theorem HInv.step {s s' : FC} {h : List FEv} {a : FAct} {es : List FEv} (hv : FcInv s) (hi : HInv s h)
    (hs : s.step a = some (s', es)) : HInv s' (h ++ es) := by
  obtain ⟨va, vb, vc, vd, ve, vf⟩ := hv
  have hon := hi.order_nil
  have hm : ∀ q, Ready h q → Ready (h ++ es) q := fun q hr => hr.mono es
  have hrs := ready_of_sized h
  have hre := ready_of_exact h
  obtain ⟨h1, h2, h3, h4, h5, h6, h7⟩ := hi
  cases a with
  | enter t q correct =>
    simp only [FC.step] at hs
    split at hs
    · rename_i hidle
      simp only [Option.some.injEq, FC.enter] at hs
      split at hs
      · split at hs
        · cases hs
          constructor
          case order => exact hon _ (by simp)
          all_goals grind [setAt, sizedCount, sizedCount_append]
        · cases hs
          rw [List.append_nil]
          constructor
          case order => exact h7
          all_goals grind [setAt]
      all_goals
        cases hs
        rw [List.append_nil]
        constructor
        case order => exact h7
        all_goals grind [setAt]
    · cases hs
  | go t ok =>
    simp only [FC.step, FC.go] at hs
    split at hs
    · cases hs
    · rename_i q hpc
      cases hs
      have hby : s.map q = some (.by t) := vb q t (by rw [hpc]; rfl)
      have h0 : sizedCount q h = 0 := h2 q t hpc
      have hother : ∀ t', s.pc t' = .creating q → t' = t := fun t' e => by
        have := vb q t' (by rw [e]; rfl)
        rw [hby] at this; simpa using this.symm
      constructor
      case order => exact hon _ (by simp)
      all_goals grind [setAt, sizedCount, sizedCount_append]
    · rename_i q r hpc
      cases hs
      rw [List.append_nil]
      constructor
      case order => exact h7
      all_goals grind [setAt]
    · split at hs
      · cases hs
        rw [List.append_nil]
        have hn : ∀ (w : Nat) (p : FPc), (s.pc w).notified t = p → (∀ q t', p ≠ .woken q t') → s.pc w = p := by
          intro w p e hp
          cases hw : s.pc w with
          | asleep q t' =>
            rw [hw] at e
            simp only [FPc.notified] at e
            split at e
            · exact absurd e.symm (hp _ _)
            · exact e
          | _ => rw [hw] at e; exact e
        constructor
        case order => exact h7
        · exact h1
        · intro q' t' e
          simp only at e
          split at e
          · cases e
          · exact h2 q' t' (hn _ _ e (by simp))
        · exact h3
        · intro q' t' e
          simp only at e
          split at e
          · cases e
          · exact h4 q' t' (hn _ _ e (by simp))
        · exact h5
        · intro q' t' e
          simp only at e
          split at e
          · cases e
          · exact h6 q' t' (hn _ _ e (by simp))
      · cases hs
    · split at hs
      · cases hs
        rw [List.append_nil]
        constructor
        case order => exact h7
        all_goals grind [setAt]
      · cases hs
    · split at hs
      · cases hs
        rw [List.append_nil]
        constructor
        case order => exact h7
        all_goals grind [setAt]
      · cases hs
    · split at hs
      · cases hs
        rw [List.append_nil]
        constructor
        case order => exact h7
        all_goals grind [setAt]
      · cases hs
        rw [List.append_nil]
        constructor
        case order => exact h7
        all_goals grind [setAt]
      · cases hs
        rw [List.append_nil]
        constructor
        case order => exact h7
        all_goals grind [setAt]
      · cases hs
    · cases hs
      rw [List.append_nil]
      constructor
      case order => exact h7
      all_goals grind [setAt]
    · cases hs
    · rename_i q hpc
      cases hs
      constructor
      case order =>
        intro pre q' t' ok' post he
        rcases List.append_eq_append_iff.1 he with ⟨x, e1, e2⟩ | ⟨x, e1, e2⟩
        · cases x with
          | nil =>
            simp at e1 e2
            obtain ⟨⟨rfl, rfl, rfl⟩, rfl⟩ := e2
            rw [e1]; exact h6 q t hpc
          | cons y x => simp at e2
        · cases x with
          | nil =>
            simp at e1 e2
            obtain ⟨⟨rfl, rfl, rfl⟩, rfl⟩ := e2
            rw [← e1]; exact h6 _ _ hpc
          | cons y x =>
            simp only [List.cons_append, List.cons.injEq] at e2
            exact h7 pre q' t' ok' x (by rw [e1, e2.1])
      all_goals grind [setAt, sizedCount, sizedCount_append]
    · cases hs
      rw [List.append_nil]
      constructor
      case order => exact h7
      all_goals grind [setAt]
  | wake t =>
    simp only [FC.step] at hs
    split at hs
    · cases hs
      rw [List.append_nil]
      constructor
      case order => exact h7
      all_goals grind [setAt]
    · cases hs

theorem FReach.hist {s : FC} {h : List FEv} (hr : FReach s h) : HInv s h := by
  induction hr with
  | init =>
    constructor <;> intros <;> simp_all [FC.init, sizedCount]
  | step a hr hs ih => exact ih.step hr.inv hs

/-- **C44 (once).**  However many threads receive blocks of a file, and in whatever order
they run, the file is opened for creation and sized at most once in a session. -/
theorem C44_sized_once (s : FC) (h : List FEv) (hr : FReach s h) (q : Nat) : sizedCount q h ≤ 1 := hr.hist.le q

/-- **C44 (order).**  No thread opens a file for its block before the file was opened and
sized successfully, unless the sender said that the file has the right size already.  In
particular if that failed, all the others fail too. -/
theorem C44_sized_before_opened (s : FC) (pre post : List FEv) (q t : Nat) (ok : Bool)
    (hr : FReach s (pre ++ .opened q t ok :: post)) : (∃ t', .sized q t' true ∈ pre) ∨ .exact q ∈ pre :=
  hr.hist.order pre q t ok post rfl

/-- What is known of files that the sender said have the right size. -/
theorem exact_inv {s : FC} {h : List FEv} (hr : FReach s h) (q : Nat) (he : .exact q ∈ h) :
    s.map q = some .allocated ∧ sizedCount q h = 0 := by
  induction hr with
  | init => simp at he
  | @step s s' h es a hr hs ih =>
    have hv := hr.inv
    have hh := hr.hist
    cases a with
    | enter t q' correct =>
      simp only [FC.step] at hs
      split at hs
      · simp only [Option.some.injEq] at hs
        unfold FC.enter at hs
        split at hs
        · next hm =>
          split at hs
          · cases hs
            rcases List.mem_append.1 he with he | he
            · obtain ⟨h1, h2⟩ := ih he
              grind [setAt, sizedCount, sizedCount_append]
            · simp only [List.mem_singleton, FEv.exact.injEq] at he
              subst he
              have := hh.none q hm
              grind [setAt, sizedCount, sizedCount_append]
          · cases hs
            rw [List.append_nil] at he ⊢
            obtain ⟨h1, h2⟩ := ih he
            grind [setAt]
        all_goals
          cases hs
          rw [List.append_nil] at he ⊢
          exact ih he
      · cases hs
    | go t ok =>
      simp only [FC.step] at hs
      unfold FC.go at hs
      split at hs
      · cases hs
      · next q' hp =>
        cases hs
        have he : .exact q ∈ h := by simpa using he
        obtain ⟨h1, h2⟩ := ih he
        have := hv.b q' t (by rw [hp]; rfl)
        refine ⟨h1, ?_⟩
        by_cases hq : q' = q
        · subst hq; rw [this] at h1; cases h1
        · grind [sizedCount, sizedCount_append]
      · next q' r hp =>
        cases hs
        rw [List.append_nil] at he ⊢
        obtain ⟨h1, h2⟩ := ih he
        have := hv.b q' t (by rw [hp]; rfl)
        grind [setAt]
      · split at hs <;> cases hs
        rw [List.append_nil] at he ⊢
        exact ih he
      · split at hs <;> cases hs
        rw [List.append_nil] at he ⊢
        exact ih he
      · split at hs <;> cases hs
        rw [List.append_nil] at he ⊢
        exact ih he
      · split at hs <;> cases hs
        all_goals
          rw [List.append_nil] at he ⊢
          exact ih he
      · cases hs
        rw [List.append_nil] at he ⊢
        exact ih he
      · cases hs
      · cases hs
        have he : .exact q ∈ h := by simpa using he
        obtain ⟨h1, h2⟩ := ih he
        exact ⟨h1, by grind [sizedCount, sizedCount_append]⟩
      · cases hs
        rw [List.append_nil] at he ⊢
        exact ih he
    | wake t =>
      simp only [FC.step] at hs
      split at hs <;> cases hs
      rw [List.append_nil] at he ⊢
      exact ih he

/-- **C44 (files of the right size are left alone).**  If the first block of a file says
that the file exists with the right size, nobody opens it for creation or sets its size in
that session, whatever later blocks of the file say. -/
theorem C44_exact_not_sized (s : FC) (h : List FEv) (hr : FReach s h) (q : Nat) (he : .exact q ∈ h) : sizedCount q h = 0 :=
  (exact_inv hr q he).2

/-- **C44 (nobody is forgotten).**  A thread that waits for another thread to finish the
creation of a file waits for one that has yet to notify it. -/
theorem C44_no_lost_wakeup (s : FC) (h : List FEv) (hr : FReach s h) (w q t : Nat) (hw : s.pc w = .asleep q t) :
    s.pc t = .creating q ∨ ∃ r, s.pc t = .created q r ∨ s.pc t = .notifying q r := by
  have hv := hr.inv
  rcases hv.c w q t (by rw [hw]; rfl) with h1 | h1
  · have := hv.a q t h1
    cases hp : s.pc t <;> simp [hp, FPc.creates] at this
    · left; rw [this]
    · right; exact ⟨_, .inl (by rw [this])⟩
  · cases hp : s.pc t <;> simp [hp, FPc.tells] at h1
    right; exact ⟨_, .inr (by rw [h1])⟩

/-- **C44 (no deadlock).**  Whenever some thread is inside `openForBlocks`, some thread
inside can go on; the thread that does is not asleep. -/
theorem C44_no_deadlock (s : FC) (h : List FEv) (hr : FReach s h) (w : Nat) (hw : s.pc w ≠ .idle) :
    ∃ t, s.pc t ≠ .idle ∧ ∀ ok, ∃ r, s.step (.go t ok) = some r := by
  have hv := hr.inv
  -- whoever holds the mutex can go on
  have hmutex : ∀ m, s.mutex = some m → ∀ ok, ∃ r, s.step (.go m ok) = some r := by
    intro m hm ok
    have hh := (hv.f m).1 hm
    cases hp : s.pc m <;> simp [hp, FPc.holds] at hh
    · rename_i q t
      simp only [FC.step, FC.go, hp]
      rcases hv.d m q t (by rw [hp]; rfl) with h1 | h1 | h1 <;> rw [h1] <;> exact ⟨_, rfl⟩
    · simp only [FC.step, FC.go, hp]; exact ⟨_, rfl⟩
  have hidle : ∀ m, s.mutex = some m → s.pc m ≠ .idle := by
    intro m hm e
    have hh := (hv.f m).1 hm
    rw [e] at hh; simp [FPc.holds] at hh
  cases hmx : s.mutex with
  | some m => exact ⟨m, hidle m hmx, hmutex m hmx⟩
  | none =>
    have hgo : ∀ t, s.pc t ≠ .idle → (∀ q t', s.pc t ≠ .asleep q t') → ∀ ok, ∃ r, s.step (.go t ok) = some r := by
      intro t h1 h2 ok
      cases hp : s.pc t with
      | idle => exact absurd hp h1
      | asleep q t' => exact absurd hp (h2 q t')
      | checking q t' => have := (hv.f t).2 (by rw [hp]; rfl); rw [hmx] at this; cases this
      | toSleep q t' => have := (hv.f t).2 (by rw [hp]; rfl); rw [hmx] at this; cases this
      | _ => simp only [FC.step, FC.go, hp, hmx, if_true]; exact ⟨_, rfl⟩
    cases hp : s.pc w with
    | asleep q t =>
      refine ⟨t, ?_, hgo t ?_ ?_⟩
      all_goals
        rcases C44_no_lost_wakeup s h hr w q t hp with h1 | ⟨r, h1 | h1⟩ <;> rw [h1] <;> simp
    | _ => exact ⟨w, hw, hgo w hw (by rw [hp]; simp)⟩

/-- Two threads: the second waits, is woken and opens the file. -/
example : ∃ s, FReach s [.sized 7 0 true, .opened 7 1 true] := by
  have h0 := FReach.init
  have h1 := h0.step (.enter 0 7 false) rfl
  have h2 := h1.step (.enter 1 7 false) rfl
  have h3 := h2.step (.go 1 true) rfl
  have h4 := h3.step (.go 1 true) rfl
  have h5 := h4.step (.go 0 true) rfl
  have h6 := h5.step (.go 0 true) rfl
  have h7 := h6.step (.go 1 true) rfl
  have h8 := h7.step (.go 0 true) rfl
  have h9 := h8.step (.go 1 true) rfl
  have h10 := h9.step (.go 1 true) rfl
  have h11 := h10.step (.go 1 true) rfl
  exact ⟨_, h11⟩

/-- A block that says the size is right, then one that does not. -/
example : ∃ s, FReach s [.exact 7, .opened 7 0 true, .opened 7 1 true] := by
  have h0 := FReach.init
  have h1 := h0.step (.enter 0 7 true) rfl
  have h2 := h1.step (.enter 1 7 false) rfl
  have h3 := h2.step (.go 0 true) rfl
  have h4 := h3.step (.go 1 true) rfl
  exact ⟨_, h4⟩

end Wdt
