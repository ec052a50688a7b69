import Verif.Model.Fds
/-
Invariant of the descriptors of a process.
-/
namespace Wdt

theorem fdUpd_same {α : Type} (f : Nat → α) (n : Nat) (x : α) : fdUpd f n x n = x := by simp [fdUpd]

theorem fdUpd_ne {α : Type} (f : Nat → α) {n m : Nat} (x : α) (h : m ≠ n) : fdUpd f n x m = f m := by simp [fdUpd, h]

theorem fdUpd_fdUpd {α : Type} (f : Nat → α) (n : Nat) (x y : α) : fdUpd (fdUpd f n x) n y = fdUpd f n y := by
  funext m; unfold fdUpd; split <;> rfl

theorem fdUpd_id {α : Type} {f : Nat → α} {n : Nat} {x : α} (h : f n = x) : fdUpd f n x = f := by
  funext m; unfold fdUpd; split
  · rename_i hm; subst hm; exact h.symm
  · rfl

/-- The object that `o` names has number `n` as a descriptor of its own. -/
def FdSys.held (s : FdSys) : FdOwner → Nat → Prop
  | .free, _ => False
  | .app, _ => False
  | .dir q, n => s.dirs q = some n
  | .file k, n => ∃ m, s.files k = some m ∧ m.needToClose = true ∧ m.fd = some n
  | .src i, n => ∃ x, s.srcs i = some x ∧ x.fd = some n ∧ ∀ m, s.files x.file = some m → m.fd = none
  | .writer t, n => s.writers t = some (some n)
  | .client t, n => ∃ c, s.clients t = some c ∧ c.fd = some n
  | .listen t, n => ∃ c, s.servers t = some c ∧ n ∈ c.listen
  | .conn t, n => ∃ c, s.servers t = some c ∧ c.conn = some n
  | .log i, n => s.logs i = some n

/-- What is open for wdt is what its objects have. -/
def FdSys.Own (s : FdSys) : Prop := ∀ n o, o ≠ .free → o ≠ .app → (s.fds n = o ↔ s.held o n)

theorem FdSys.Own.opened {s s' : FdSys} {o : FdOwner} {n : Nat} (h : s.Own) (hf : s.fds n = .free)
    (hfds : s'.fds = fdUpd s.fds n o) (ho : o ≠ .free) (hh : ∀ o' n', s'.held o' n' ↔ (s.held o' n' ∨ (o' = o ∧ n' = n))) : s'.Own := by
  intro m p hp hp2
  rw [hh, hfds, ← h m p hp hp2]
  by_cases hm : m = n
  · subst hm
    rw [fdUpd_same, hf]
    constructor
    · intro h1; exact .inr ⟨h1.symm, rfl⟩
    · rintro (h1 | ⟨h1, -⟩)
      · exact absurd h1.symm hp
      · exact h1.symm
  · rw [fdUpd_ne _ _ hm]
    constructor
    · exact .inl
    · rintro (h1 | ⟨-, h1⟩)
      · exact h1
      · exact absurd h1 hm

theorem FdSys.Own.closed {s s' : FdSys} {o : FdOwner} {n : Nat} (h : s.Own) (hf : s.fds n = o)
    (hfds : s'.fds = fdUpd s.fds n .free) (hh : ∀ o' n', s'.held o' n' ↔ (s.held o' n' ∧ ¬(o' = o ∧ n' = n))) : s'.Own := by
  intro m p hp hp2
  rw [hh, hfds, ← h m p hp hp2]
  by_cases hm : m = n
  · subst hm
    rw [fdUpd_same, hf]
    constructor
    · intro h1; exact absurd h1.symm hp
    · rintro ⟨h1, h2⟩; exact absurd ⟨h1.symm, rfl⟩ h2
  · rw [fdUpd_ne _ _ hm]
    constructor
    · intro h1; exact ⟨h1, fun h2 => hm h2.2⟩
    · exact fun h1 => h1.1

theorem FdSys.Own.same {s s' : FdSys} (h : s.Own) (hfds : s'.fds = s.fds) (hh : ∀ o' n', s'.held o' n' ↔ s.held o' n') : s'.Own := by
  intro m p hp hp2
  rw [hh, hfds, ← h m p hp hp2]

/-- Invariant. -/
structure FdInv (s : FdSys) : Prop where
  own : s.Own
  lent : ∀ k m n, s.files k = some m → m.needToClose = false → m.fd = some n → s.fds n = .app
  fileBound : ∀ k, s.nfile ≤ k → s.files k = none
  srcBound : ∀ i, s.nsrc ≤ i → s.srcs i = none
  del : ∀ k m, s.files k = some m → m.del = true → m.fd = none
  srcFile : ∀ i x, s.srcs i = some x → ∃ m, s.files x.file = some m
  srcFd : ∀ i x m n, s.srcs i = some x → s.files x.file = some m → m.fd = some n → x.fd = none ∨ x.fd = some n
  ctx : ∀ i x, s.srcs i = some x → x.fd ≠ none → x.ctx = true
  cache : ∀ i x, s.srcs i = some x → x.ctx = true → x.read = true → x.fd ≠ none
  idle : ∀ i x, s.srcs i = some x → x.held = false → x.fd = none
  heldCur : ∀ i x, s.srcs i = some x → x.held = true → ∃ t, s.cur t = some i
  curHeld : ∀ t i, s.cur t = some i → ∃ x, s.srcs i = some x ∧ x.held = true
  curInj : ∀ t t' i, s.cur t = some i → s.cur t' = some i → t = t'
  connecting : ∀ t c, s.clients t = some c → c.connecting = true → c.fd = none
  accepting : ∀ t c, s.servers t = some c → c.accepting = true → c.conn = none
  nodup : ∀ t c, s.servers t = some c → c.listen.Nodup

/-- The application's descriptors are the same. -/
def AppSame (s s' : FdSys) : Prop := ∀ n, s'.fds n = .app ↔ s.fds n = .app

theorem AppSame.rfl {s : FdSys} : AppSame s s := fun _ => Iff.rfl

theorem AppSame.trans {s s' s'' : FdSys} (h : AppSame s s') (g : AppSame s' s'') : AppSame s s'' := fun n => (g n).trans (h n)

/-- A step that is all right: the invariant holds afterwards, the application's descriptors are the same, and so are
the files and the budget. -/
structure FdKeep (s s' : FdSys) : Prop where
  inv : FdInv s'
  app : AppSame s s'
  files : s'.files = s.files
  nfile : s'.nfile = s.nfile
  budget : s'.budget = s.budget

theorem FdKeep.rfl {s : FdSys} (h : FdInv s) : FdKeep s s := ⟨h, AppSame.rfl, Eq.refl _, Eq.refl _, Eq.refl _⟩

theorem FdKeep.trans {s s' s'' : FdSys} (h : FdKeep s s') (g : FdKeep s' s'') : FdKeep s s'' :=
  ⟨g.inv, h.app.trans g.app, g.files.trans h.files, g.nfile.trans h.nfile, g.budget.trans h.budget⟩

theorem app_opened {s : FdSys} {o : FdOwner} {n : Nat} (hf : s.fds n = .free) (ho : o ≠ .app) :
    ∀ m, fdUpd s.fds n o m = .app ↔ s.fds m = .app := by
  intro m
  by_cases hm : m = n
  · subst hm; rw [fdUpd_same, hf]
    constructor
    · intro h; exact absurd h ho
    · intro h; cases h
  · rw [fdUpd_ne _ _ hm]

theorem app_closed {s : FdSys} {o : FdOwner} {n : Nat} (hf : s.fds n = o) (ho : o ≠ .app) :
    ∀ m, fdUpd s.fds n .free m = .app ↔ s.fds m = .app := by
  intro m
  by_cases hm : m = n
  · subst hm; rw [fdUpd_same, hf]
    constructor
    · intro h; cases h
    · intro h; exact absurd h ho
  · rw [fdUpd_ne _ _ hm]

theorem kopen_cases (s : FdSys) (o : FdOwner) (r : Option Nat) :
    s.kopen o r = (s, none) ∨ ∃ n, s.fds n = .free ∧ s.kopen o r = ({ s with fds := fdUpd s.fds n o }, some n) := by
  unfold FdSys.kopen
  cases r with
  | none => exact .inl rfl
  | some n =>
    dsimp only
    by_cases h : s.fds n = .free
    · rw [if_pos h]; exact .inr ⟨n, h, rfl⟩
    · rw [if_neg h]; exact .inl rfl

theorem kclose_eq {s : FdSys} {o : FdOwner} {n : Nat} (h : s.fds n = o) :
    s.kclose o n = .ok { s with fds := fdUpd s.fds n .free } := by
  unfold FdSys.kclose; rw [if_pos h]

theorem kuse_eq {s : FdSys} {o : FdOwner} {n : Nat} (h : s.fds n = o) : s.kuse o n = .ok s := by
  unfold FdSys.kuse; rw [if_pos h]

/-! ### Receiver: files -/

theorem writerDrop_ok {s : FdSys} (h : FdInv s) (t : Nat) :
    ∃ s', s.writerDrop t = .ok s' ∧ FdKeep s s' ∧ s'.writers t = none := by
  unfold FdSys.writerDrop
  cases hw : s.writers t with
  | none => exact ⟨s, rfl, .rfl h, hw⟩
  | some fd =>
    cases fd with
    | none =>
      refine ⟨{ s with writers := fdUpd s.writers t none }, rfl, ⟨{ h with own := ?_ }, AppSame.rfl, rfl, rfl, rfl⟩, fdUpd_same _ _ _⟩
      refine h.own.same rfl fun o' n' => ?_
      cases o' <;> simp only [FdSys.held]
      rename_i t'
      by_cases ht : t' = t
      · subst ht; rw [fdUpd_same, hw]; simp
      · rw [fdUpd_ne _ _ ht]
    | some n =>
      have hf : s.fds n = .writer t := (h.own n (.writer t) (by simp) (by simp)).2 hw
      dsimp only [FdSys.kcloseOpt]
      rw [kclose_eq hf]
      refine ⟨_, rfl, ⟨{ h with own := ?_, lent := ?_ }, app_closed hf (by simp), rfl, rfl, rfl⟩, fdUpd_same _ _ _⟩
      · refine h.own.closed (n := n) hf rfl fun o' n' => ?_
        cases o' <;> simp only [FdSys.held, reduceCtorEq, false_and, not_false_eq_true, and_true]
        rename_i t'
        by_cases ht : t' = t
        · subst ht; rw [fdUpd_same, hw]; simp
          exact fun he => he.symm
        · rw [fdUpd_ne _ _ ht]; simp [ht]
      · intro k m n' h1 h2 h3
        exact (app_closed hf (by simp) n').2 (h.lent k m n' h1 h2 h3)

/-- Opening a file in a writer that has none. -/
theorem writer_opened {s : FdSys} (h : FdInv s) {t n : Nat} (hw : s.writers t = none ∨ s.writers t = some none) (hf : s.fds n = .free) :
    FdKeep s { s with fds := fdUpd s.fds n (.writer t), writers := fdUpd s.writers t (some (some n)) } := by
  refine ⟨{ h with own := ?_, lent := ?_ }, app_opened hf (by simp), rfl, rfl, rfl⟩
  · refine h.own.opened (n := n) (o := .writer t) hf rfl (by simp) fun o' n' => ?_
    cases o' <;> simp only [FdSys.held, reduceCtorEq, false_and, or_false]
    rename_i t'
    by_cases ht : t' = t
    · subst ht; rw [fdUpd_same]
      rcases hw with hw | hw <;> rw [hw] <;> simp <;> exact eq_comm
    · rw [fdUpd_ne _ _ ht]; simp [ht]
  · intro k m n' h1 h2 h3
    exact (app_opened hf (by simp) n').2 (h.lent k m n' h1 h2 h3)

theorem writer_none {s : FdSys} (h : FdInv s) {t : Nat} (hw : s.writers t = none ∨ s.writers t = some none) :
    FdKeep s { s with writers := fdUpd s.writers t (some none) } := by
  refine ⟨{ h with own := ?_ }, AppSame.rfl, rfl, rfl, rfl⟩
  refine h.own.same rfl fun o' n' => ?_
  cases o' <;> simp only [FdSys.held]
  rename_i t'
  by_cases ht : t' = t
  · subst ht; rw [fdUpd_same]; rcases hw with hw | hw <;> rw [hw] <;> simp
  · rw [fdUpd_ne _ _ ht]

theorem openForBlocks_ok {s : FdSys} (t : Nat) (o : FdOpen) :
    s.openForBlocks t o = .ok (s, none) ∨
    (o.del = false ∧ ∃ n, s.fds n = .free ∧ s.openForBlocks t o = .ok ({ s with fds := fdUpd s.fds n (.writer t) }, some n)) := by
  unfold FdSys.openForBlocks
  cases hd : o.del with
  | true => exact .inl rfl
  | false =>
    simp only [Bool.false_eq_true, if_false]
    have key : ∀ p : FdSys × Option Nat,
        (p = (s, none) ∨ ∃ n, s.fds n = .free ∧ p = ({ s with fds := fdUpd s.fds n (.writer t) }, some n)) →
        ((match p.2 with
          | none => (Except.ok (p.1, none) : Except FdBad (FdSys × Option Nat))
          | some n =>
            if o.first = true ∧ o.sizeOk = false then
              match p.1.kclose (.writer t) n with
              | .error e => .error e
              | .ok s => .ok (s, none)
            else .ok (p.1, some n)) = .ok (s, none)) ∨
        (∃ n, s.fds n = .free ∧ (match p.2 with
          | none => (Except.ok (p.1, none) : Except FdBad (FdSys × Option Nat))
          | some n =>
            if o.first = true ∧ o.sizeOk = false then
              match p.1.kclose (.writer t) n with
              | .error e => .error e
              | .ok s => .ok (s, none)
            else .ok (p.1, some n)) = .ok ({ s with fds := fdUpd s.fds n (.writer t) }, some n)) := by
      rintro p (rfl | ⟨n, hf, rfl⟩)
      · exact .inl rfl
      · dsimp only
        by_cases hc : o.first = true ∧ o.sizeOk = false
        · rw [if_pos hc, kclose_eq (by exact fdUpd_same _ _ _)]
          left
          dsimp only
          rw [fdUpd_fdUpd, fdUpd_id hf]
        · rw [if_neg hc]
          exact .inr ⟨n, hf, rfl⟩
    rcases key (if (s.kopen (.writer t) o.r1).2 = none ∧ o.again = true then (s.kopen (.writer t) o.r1).1.kopen (.writer t) o.r2
        else s.kopen (.writer t) o.r1) (by
      rcases kopen_cases s (.writer t) o.r1 with h1 | ⟨n, hf, h1⟩
      · rw [h1]
        dsimp only
        split
        · exact kopen_cases s (.writer t) o.r2
        · exact .inl rfl
      · rw [h1]
        simp only [reduceCtorEq, false_and, if_false]
        exact .inr ⟨n, hf, rfl⟩) with h1 | h1
    · exact .inl h1
    · exact .inr ⟨trivial, h1⟩

theorem writerOpen_ok {s : FdSys} (h : FdInv s) (t : Nat) (o : FdOpen) : ∃ s', s.writerOpen t o = .ok s' ∧ FdKeep s s' := by
  unfold FdSys.writerOpen
  cases hw : s.writers t with
  | some fd => exact ⟨s, rfl, .rfl h⟩
  | none =>
    dsimp only
    by_cases hs : o.skip = true
    · rw [if_pos hs]; exact ⟨_, rfl, writer_none h (.inl hw)⟩
    · rw [if_neg hs]
      rcases openForBlocks_ok (s := s) t o with he | ⟨hd, n, hf, he⟩
      · rw [he]
        dsimp only
        by_cases hd : o.del = true
        · rw [if_pos hd, if_neg (by simp)]; exact ⟨_, rfl, writer_none h (.inl hw)⟩
        · rw [if_neg hd, if_pos (.inl rfl)]
          have h1 := writer_none h (t := t) (.inl hw)
          obtain ⟨s', h2, h3, -⟩ := writerDrop_ok h1.inv t
          exact ⟨s', h2, h1.trans h3⟩
      · rw [he]
        dsimp only
        rw [if_neg (by simp [hd])]
        have h1 := writer_opened h (t := t) (.inl hw) hf
        split
        · obtain ⟨s', h2, h3, -⟩ := writerDrop_ok h1.inv t
          exact ⟨s', h2, h1.trans h3⟩
        · exact ⟨_, rfl, h1⟩

theorem writerUse_ok {s : FdSys} (h : FdInv s) (t : Nat) (ok : Bool) : ∃ s', s.writerUse t ok = .ok s' ∧ FdKeep s s' := by
  unfold FdSys.writerUse
  cases hw : s.writers t with
  | none => exact ⟨s, rfl, .rfl h⟩
  | some fd =>
    cases fd with
    | none => exact ⟨s, rfl, .rfl h⟩
    | some n =>
      have hf : s.fds n = .writer t := (h.own n (.writer t) (by simp) (by simp)).2 hw
      dsimp only
      rw [kuse_eq hf]
      dsimp only
      split
      · exact ⟨s, rfl, .rfl h⟩
      · obtain ⟨s', h2, h3, -⟩ := writerDrop_ok h t
        exact ⟨s', h2, h3⟩

theorem writerEnd_ok {s : FdSys} (h : FdInv s) (t : Nat) : ∃ s', s.writerEnd t = .ok s' ∧ FdKeep s s' ∧ s'.writers t = none := by
  have h1 := writerDrop_ok h t
  unfold FdSys.writerEnd
  unfold FdSys.writerDrop at h1
  cases hw : s.writers t with
  | none => exact ⟨s, rfl, .rfl h, hw⟩
  | some fd =>
    rw [hw] at h1
    dsimp only at h1 ⊢
    cases hk : s.kcloseOpt (.writer t) fd with
    | error e => rw [hk] at h1; obtain ⟨_, h2, _⟩ := h1; cases h2
    | ok s1 =>
      rw [hk] at h1
      obtain ⟨s2, h2, h3, h4⟩ := h1
      cases h2
      dsimp only
      unfold FdSys.writerDrop
      dsimp only
      rw [fdUpd_same]
      refine ⟨_, rfl, ?_, fdUpd_same _ _ _⟩
      dsimp only
      rw [fdUpd_fdUpd]
      exact h3

/-! ### Sockets of the sender -/

theorem client_set {s : FdSys} (h : FdInv s) {t : Nat} {c : FdClient} (v : Option FdClient)
    (hc : s.clients t = some c) (hn : c.fd = none) (hv : ∀ d, v = some d → d.fd = none) :
    FdKeep s { s with clients := fdUpd s.clients t v } := by
  refine ⟨{ h with own := ?_, connecting := ?_ }, AppSame.rfl, rfl, rfl, rfl⟩
  · refine h.own.same rfl fun o' n' => ?_
    cases o' <;> simp only [FdSys.held]
    rename_i t'
    by_cases ht : t' = t
    · subst ht; rw [fdUpd_same, hc]
      constructor
      · rintro ⟨d, h1, h2⟩; rw [hv d h1] at h2; cases h2
      · rintro ⟨d, h1, h2⟩; cases h1; rw [hn] at h2; cases h2
    · rw [fdUpd_ne _ _ ht]
  · intro t' d h1 h2
    by_cases ht : t' = t
    · subst ht; dsimp only at h1; rw [fdUpd_same] at h1; exact hv d h1
    · dsimp only at h1; rw [fdUpd_ne _ _ ht] at h1; exact h.connecting t' d h1 h2

theorem client_make {s : FdSys} (h : FdInv s) {t : Nat} (hc : s.clients t = none) :
    FdKeep s { s with clients := fdUpd s.clients t (some {}) } := by
  refine ⟨{ h with own := ?_, connecting := ?_ }, AppSame.rfl, rfl, rfl, rfl⟩
  · refine h.own.same rfl fun o' n' => ?_
    cases o' <;> simp only [FdSys.held]
    rename_i t'
    by_cases ht : t' = t
    · subst ht; rw [fdUpd_same, hc]; simp
    · rw [fdUpd_ne _ _ ht]
  · intro t' d h1 h2
    by_cases ht : t' = t
    · subst ht; dsimp only at h1; rw [fdUpd_same] at h1; cases h1; rfl
    · dsimp only at h1; rw [fdUpd_ne _ _ ht] at h1; exact h.connecting t' d h1 h2

theorem clientClose_ok {s : FdSys} (h : FdInv s) (t : Nat) : ∃ s', s.clientClose t = .ok s' ∧ FdKeep s s' ∧
    s'.clients t = (s.clients t).map fun c => { c with fd := none } := by
  unfold FdSys.clientClose
  cases hc : s.clients t with
  | none => exact ⟨s, rfl, .rfl h, hc⟩
  | some c =>
    dsimp only
    cases hn : c.fd with
    | none =>
      exact ⟨_, rfl, client_set h (some { c with fd := none }) hc hn (fun d hd => by cases hd; rfl), fdUpd_same _ _ _⟩
    | some n =>
      have hf : s.fds n = .client t := (h.own n (.client t) (by simp) (by simp)).2 ⟨c, hc, hn⟩
      dsimp only [FdSys.kcloseOpt]
      rw [kclose_eq hf]
      refine ⟨_, rfl, ⟨{ h with own := ?_, lent := ?_, connecting := ?_ }, app_closed hf (by simp), rfl, rfl, rfl⟩, fdUpd_same _ _ _⟩
      · refine h.own.closed (n := n) hf rfl fun o' n' => ?_
        cases o' <;> simp only [FdSys.held, reduceCtorEq, false_and, not_false_eq_true, and_true]
        rename_i t'
        by_cases ht : t' = t
        · subst ht; rw [fdUpd_same, hc]; simp [hn]
          exact fun he => he.symm
        · rw [fdUpd_ne _ _ ht]; simp [ht]
      · intro k m n' h1 h2 h3
        exact (app_closed hf (by simp) n').2 (h.lent k m n' h1 h2 h3)
      · intro t' d h1 h2
        by_cases ht : t' = t
        · subst ht; dsimp only at h1; rw [fdUpd_same] at h1; cases h1; rfl
        · dsimp only at h1; rw [fdUpd_ne _ _ ht] at h1; exact h.connecting t' d h1 h2

theorem clientDrop_ok {s : FdSys} (h : FdInv s) (t : Nat) : ∃ s', s.clientDrop t = .ok s' ∧ FdKeep s s' ∧ s'.clients t = none := by
  unfold FdSys.clientDrop
  obtain ⟨s1, h1, h2, h3⟩ := clientClose_ok h t
  rw [h1]
  refine ⟨_, rfl, ?_, fdUpd_same _ _ _⟩
  cases hc : s.clients t with
  | none =>
    rw [hc] at h3
    have : fdUpd s1.clients t none = s1.clients := fdUpd_id h3
    rw [this]
    exact h2
  | some c =>
    rw [hc] at h3
    exact h2.trans (client_set h2.inv none h3 rfl (fun d hd => by cases hd))

theorem clientNew_ok {s : FdSys} (h : FdInv s) (t : Nat) : ∃ s', s.clientNew t = .ok s' ∧ FdKeep s s' := by
  unfold FdSys.clientNew
  obtain ⟨s1, h1, h2, -⟩ := clientClose_ok h t
  rw [h1]
  dsimp only
  obtain ⟨s2, h3, h4, h5⟩ := clientDrop_ok h2.inv t
  rw [h3]
  exact ⟨_, rfl, (h2.trans h4).trans (client_make h4.inv h5)⟩

theorem clientCall_ok {s : FdSys} (h : FdInv s) (t : Nat) :
    ∃ s', s.clientCall t ((s.clients t).elim false (·.fd.isSome)) = .ok s' ∧ FdKeep s s' := by
  unfold FdSys.clientCall
  cases hc : s.clients t with
  | none => exact ⟨s, rfl, .rfl h⟩
  | some c =>
    by_cases hn : c.fd = none
    · refine ⟨{ s with clients := fdUpd s.clients t (some { c with connecting := true }) }, ?_, client_set h (some { c with connecting := true }) hc hn (fun d hd => by cases hd; exact hn)⟩
      simp [hn]
    · refine ⟨s, ?_, .rfl h⟩
      have := Option.isSome_iff_ne_none.2 hn
      simp [this]

theorem clientTry_ok {s : FdSys} (h : FdInv s) (t : Nat) (r : Option Nat) (a : FdAddr) : ∃ s', s.clientTry t r a = .ok s' ∧ FdKeep s s' := by
  unfold FdSys.clientTry
  cases hc : s.clients t with
  | none => exact ⟨s, rfl, .rfl h⟩
  | some c =>
    dsimp only
    by_cases hb : c.connecting = false
    · rw [if_pos hb]; exact ⟨s, rfl, .rfl h⟩
    · rw [if_neg hb]
      have hn := h.connecting t c hc (by simpa using hb)
      rcases kopen_cases s (.client t) r with he | ⟨n, hf, he⟩
      · rw [he]; exact ⟨s, rfl, .rfl h⟩
      · rw [he]
        dsimp only
        have open_ok : ∀ d : FdClient, d.fd = some n → (d.connecting = false) →
            FdKeep s { s with fds := fdUpd s.fds n (.client t), clients := fdUpd s.clients t (some d) } := by
          intro d hd hd2
          refine ⟨{ h with own := ?_, lent := ?_, connecting := ?_ }, app_opened hf (by simp), rfl, rfl, rfl⟩
          · refine h.own.opened (n := n) (o := .client t) hf rfl (by simp) fun o' n' => ?_
            cases o' <;> simp only [FdSys.held, reduceCtorEq, false_and, or_false]
            rename_i t'
            by_cases ht : t' = t
            · subst ht; rw [fdUpd_same, hc]; simp [hd, hn]; exact eq_comm
            · rw [fdUpd_ne _ _ ht]; simp [ht]
          · intro k m n' h1 h2 h3
            exact (app_opened hf (by simp) n').2 (h.lent k m n' h1 h2 h3)
          · intro t' d' h1 h2
            by_cases ht : t' = t
            · subst ht; dsimp only at h1; rw [fdUpd_same] at h1; cases h1; rw [hd2] at h2; cases h2
            · dsimp only at h1; rw [fdUpd_ne _ _ ht] at h1; exact h.connecting t' d' h1 h2
        have close_ok : FdSys.clientClose { s with fds := fdUpd s.fds n (.client t), clients := fdUpd s.clients t (some { c with fd := some n }) } t =
            .ok { s with clients := fdUpd s.clients t (some { c with fd := none }) } := by
          unfold FdSys.clientClose
          dsimp only
          rw [fdUpd_same]
          dsimp only [FdSys.kcloseOpt]
          rw [kclose_eq (by exact fdUpd_same _ _ _)]
          dsimp only
          rw [fdUpd_fdUpd, fdUpd_fdUpd, fdUpd_id hf]
        have h1 := client_set h (some { c with fd := none }) hc hn (fun d hd => by cases hd; rfl)
        cases a with
        | good =>
          dsimp only
          rw [fdUpd_fdUpd]
          exact ⟨_, rfl, open_ok _ rfl rfl⟩
        | next => dsimp only; rw [close_ok]; exact ⟨_, rfl, h1⟩
        | give =>
          dsimp only
          rw [close_ok]
          refine ⟨_, rfl, h1.trans (client_set h1.inv (some {}) (fdUpd_same _ _ _) rfl (fun d hd => by cases hd; rfl))⟩

theorem clientUse_ok {s : FdSys} (h : FdInv s) (t : Nat) : ∃ s', s.clientUse t = .ok s' ∧ FdKeep s s' := by
  unfold FdSys.clientUse
  cases hc : s.clients t with
  | none => exact ⟨s, rfl, .rfl h⟩
  | some c =>
    dsimp only
    cases hn : c.fd with
    | none => exact ⟨s, rfl, .rfl h⟩
    | some n =>
      dsimp only
      rw [kuse_eq ((h.own n (.client t) (by simp) (by simp)).2 ⟨c, hc, hn⟩)]
      exact ⟨s, rfl, .rfl h⟩

/-! ### Directories and logs -/

theorem dirOpen_ok {s : FdSys} (h : FdInv s) {q : Nat} (hq : s.dirs q = none) (r : Option Nat) :
    FdKeep s { (s.kopen (.dir q) r).1 with dirs := fdUpd (s.kopen (.dir q) r).1.dirs q (s.kopen (.dir q) r).2 } := by
  rcases kopen_cases s (.dir q) r with he | ⟨n, hf, he⟩
  · rw [he]; dsimp only; rw [fdUpd_id hq]; exact .rfl h
  · rw [he]
    refine ⟨{ h with own := ?_, lent := ?_ }, app_opened hf (by simp), rfl, rfl, rfl⟩
    · refine h.own.opened (n := n) (o := .dir q) hf rfl (by simp) fun o' n' => ?_
      cases o' <;> simp only [FdSys.held, reduceCtorEq, false_and, or_false]
      rename_i t'
      by_cases ht : t' = q
      · subst ht; rw [fdUpd_same, hq]; simp; exact eq_comm
      · rw [fdUpd_ne _ _ ht]; simp [ht]
    · intro k m n' h1 h2 h3
      exact (app_opened hf (by simp) n').2 (h.lent k m n' h1 h2 h3)

theorem dirClose_ok {s : FdSys} (h : FdInv s) {q n : Nat} (hq : s.dirs q = some n) :
    s.fds n = .dir q ∧ FdKeep s { s with fds := fdUpd s.fds n .free, dirs := fdUpd s.dirs q none } := by
  have hf : s.fds n = .dir q := (h.own n (.dir q) (by simp) (by simp)).2 hq
  refine ⟨hf, ⟨{ h with own := ?_, lent := ?_ }, app_closed hf (by simp), rfl, rfl, rfl⟩⟩
  · refine h.own.closed (n := n) hf rfl fun o' n' => ?_
    cases o' <;> simp only [FdSys.held, reduceCtorEq, false_and, not_false_eq_true, and_true]
    rename_i t'
    by_cases ht : t' = q
    · subst ht; rw [fdUpd_same, hq]; simp
      exact fun he => he.symm
    · rw [fdUpd_ne _ _ ht]; simp [ht]
  · intro k m n' h1 h2 h3
    exact (app_closed hf (by simp) n').2 (h.lent k m n' h1 h2 h3)

theorem log_opened {s : FdSys} (h : FdInv s) {i n : Nat} (hi : s.logs i = none) (hf : s.fds n = .free) :
    FdKeep s { s with fds := fdUpd s.fds n (.log i), logs := fdUpd s.logs i (some n) } := by
  refine ⟨{ h with own := ?_, lent := ?_ }, app_opened hf (by simp), rfl, rfl, rfl⟩
  · refine h.own.opened (n := n) (o := .log i) hf rfl (by simp) fun o' n' => ?_
    cases o' <;> simp only [FdSys.held, reduceCtorEq, false_and, or_false]
    rename_i t'
    by_cases ht : t' = i
    · subst ht; rw [fdUpd_same, hi]; simp; exact eq_comm
    · rw [fdUpd_ne _ _ ht]; simp [ht]
  · intro k m n' h1 h2 h3
    exact (app_opened hf (by simp) n').2 (h.lent k m n' h1 h2 h3)

/-- Opening and closing at once. -/
theorem open_close {s : FdSys} {o : FdOwner} {n : Nat} (hf : s.fds n = .free) :
    FdSys.kclose { s with fds := fdUpd s.fds n o } o n = .ok s := by
  rw [kclose_eq (by exact fdUpd_same _ _ _)]
  dsimp only
  rw [fdUpd_fdUpd, fdUpd_id hf]

theorem logOpen_ok {s : FdSys} (h : FdInv s) {i : Nat} (hi : s.logs i = none) (r1 r2 r3 : Option Nat) (found lock : Bool) :
    ∃ s', s.logOpen i r1 r2 r3 found lock = .ok s' ∧ FdKeep s s' := by
  unfold FdSys.logOpen
  rw [if_neg (by simp [hi])]
  rcases kopen_cases s (.log i) r1 with he | ⟨n, hf, he⟩
  · rw [he]
    dsimp only
    split
    · exact ⟨s, rfl, .rfl h⟩
    · have h2 : FdSys.kcloseOpt (s.kopen (.log i) r2).1 (.log i) (s.kopen (.log i) r2).2 = .ok s := by
        rcases kopen_cases s (.log i) r2 with he2 | ⟨n, hf, he2⟩
        · rw [he2]; rfl
        · rw [he2]; exact open_close hf
      rw [h2]
      dsimp only
      rcases kopen_cases s (.log i) r3 with he3 | ⟨n, hf, he3⟩
      · rw [he3]; exact ⟨s, rfl, .rfl h⟩
      · rw [he3]
        dsimp only
        split
        · exact ⟨_, rfl, log_opened h hi hf⟩
        · rw [open_close hf]; exact ⟨s, rfl, .rfl h⟩
  · rw [he]
    dsimp only
    split
    · exact ⟨_, rfl, log_opened h hi hf⟩
    · rw [open_close hf]; exact ⟨s, rfl, .rfl h⟩

theorem logClose_ok {s : FdSys} (h : FdInv s) (i : Nat) : ∃ s', s.logClose i = .ok s' ∧ FdKeep s s' ∧ s'.logs i = none := by
  unfold FdSys.logClose
  cases hi : s.logs i with
  | none => exact ⟨s, rfl, .rfl h, hi⟩
  | some n =>
    have hf : s.fds n = .log i := (h.own n (.log i) (by simp) (by simp)).2 hi
    dsimp only
    rw [kclose_eq hf]
    refine ⟨_, rfl, ⟨{ h with own := ?_, lent := ?_ }, app_closed hf (by simp), rfl, rfl, rfl⟩, fdUpd_same _ _ _⟩
    · refine h.own.closed (n := n) hf rfl fun o' n' => ?_
      cases o' <;> simp only [FdSys.held, reduceCtorEq, false_and, not_false_eq_true, and_true]
      rename_i t'
      by_cases ht : t' = i
      · subst ht; rw [fdUpd_same, hi]; simp
        exact fun he => he.symm
      · rw [fdUpd_ne _ _ ht]; simp [ht]
    · intro k m n' h1 h2 h3
      exact (app_closed hf (by simp) n').2 (h.lent k m n' h1 h2 h3)

theorem logUse_ok {s : FdSys} (h : FdInv s) (i : Nat) : ∃ s', s.logUse i = .ok s' ∧ FdKeep s s' := by
  unfold FdSys.logUse
  cases hi : s.logs i with
  | none => exact ⟨s, rfl, .rfl h⟩
  | some n =>
    dsimp only
    rw [kuse_eq ((h.own n (.log i) (by simp) (by simp)).2 hi)]
    exact ⟨s, rfl, .rfl h⟩

/-! ### Sockets of the receiver -/

/-- Changing a server socket without changing its descriptors. -/
theorem server_set {s : FdSys} (h : FdInv s) {t : Nat} {c : FdServer} (d : FdServer) (hc : s.servers t = some c)
    (h1 : d.listen = c.listen) (h2 : d.conn = c.conn) (h3 : d.accepting = true → d.conn = none) :
    FdKeep s { s with servers := fdUpd s.servers t (some d) } := by
  refine ⟨{ h with own := ?_, accepting := ?_, nodup := ?_ }, AppSame.rfl, rfl, rfl, rfl⟩
  · refine h.own.same rfl fun o' n' => ?_
    cases o' <;> simp only [FdSys.held]
    all_goals
      rename_i t'
      by_cases ht : t' = t
      · subst ht; rw [fdUpd_same, hc]; simp [h1, h2]
      · rw [fdUpd_ne _ _ ht]
  · intro t' e he
    by_cases ht : t' = t
    · subst ht; dsimp only at he; rw [fdUpd_same] at he; cases he; exact h3
    · dsimp only at he; rw [fdUpd_ne _ _ ht] at he; exact h.accepting t' e he
  · intro t' e he
    by_cases ht : t' = t
    · subst ht; dsimp only at he; rw [fdUpd_same] at he; cases he; rw [h1]; exact h.nodup t' c hc
    · dsimp only at he; rw [fdUpd_ne _ _ ht] at he; exact h.nodup t' e he

theorem server_none {s : FdSys} (h : FdInv s) {t : Nat} {c : FdServer} (hc : s.servers t = some c) (h1 : c.listen = []) (h2 : c.conn = none) :
    FdKeep s { s with servers := fdUpd s.servers t none } := by
  refine ⟨{ h with own := ?_, accepting := ?_, nodup := ?_ }, AppSame.rfl, rfl, rfl, rfl⟩
  · refine h.own.same rfl fun o' n' => ?_
    cases o' <;> simp only [FdSys.held]
    all_goals
      rename_i t'
      by_cases ht : t' = t
      · subst ht; rw [fdUpd_same, hc]; simp [h1, h2]
      · rw [fdUpd_ne _ _ ht]
  · intro t' e he
    by_cases ht : t' = t
    · subst ht; dsimp only at he; rw [fdUpd_same] at he; cases he
    · dsimp only at he; rw [fdUpd_ne _ _ ht] at he; exact h.accepting t' e he
  · intro t' e he
    by_cases ht : t' = t
    · subst ht; dsimp only at he; rw [fdUpd_same] at he; cases he
    · dsimp only at he; rw [fdUpd_ne _ _ ht] at he; exact h.nodup t' e he

theorem server_make {s : FdSys} (h : FdInv s) {t : Nat} (hc : s.servers t = none) :
    FdKeep s { s with servers := fdUpd s.servers t (some {}) } := by
  refine ⟨{ h with own := ?_, accepting := ?_, nodup := ?_ }, AppSame.rfl, rfl, rfl, rfl⟩
  · refine h.own.same rfl fun o' n' => ?_
    cases o' <;> simp only [FdSys.held]
    all_goals
      rename_i t'
      by_cases ht : t' = t
      · subst ht; rw [fdUpd_same, hc]; simp
      · rw [fdUpd_ne _ _ ht]
  · intro t' e he
    by_cases ht : t' = t
    · subst ht; dsimp only at he; rw [fdUpd_same] at he; cases he; intro _; rfl
    · dsimp only at he; rw [fdUpd_ne _ _ ht] at he; exact h.accepting t' e he
  · intro t' e he
    by_cases ht : t' = t
    · subst ht; dsimp only at he; rw [fdUpd_same] at he; cases he; exact .nil
    · dsimp only at he; rw [fdUpd_ne _ _ ht] at he; exact h.nodup t' e he

theorem serverClose_ok {s : FdSys} (h : FdInv s) (t : Nat) : ∃ s', s.serverClose t = .ok s' ∧ FdKeep s s' ∧
    s'.servers t = (s.servers t).map fun c => { c with conn := none } := by
  unfold FdSys.serverClose
  cases hc : s.servers t with
  | none => exact ⟨s, rfl, .rfl h, hc⟩
  | some c =>
    dsimp only
    cases hn : c.conn with
    | none =>
      exact ⟨_, rfl, server_set h { c with conn := none } hc rfl hn.symm (fun _ => rfl), fdUpd_same _ _ _⟩
    | some n =>
      have hf : s.fds n = .conn t := (h.own n (.conn t) (by simp) (by simp)).2 ⟨c, hc, hn⟩
      dsimp only [FdSys.kcloseOpt]
      rw [kclose_eq hf]
      refine ⟨_, rfl, ⟨{ h with own := ?_, lent := ?_, accepting := ?_, nodup := ?_ }, app_closed hf (by simp), rfl, rfl, rfl⟩, fdUpd_same _ _ _⟩
      · refine h.own.closed (n := n) hf rfl fun o' n' => ?_
        cases o' <;> simp only [FdSys.held, reduceCtorEq, false_and, not_false_eq_true, and_true]
        · rename_i t'
          by_cases ht : t' = t
          · subst ht; rw [fdUpd_same, hc]; simp
          · rw [fdUpd_ne _ _ ht]
        · rename_i t'
          by_cases ht : t' = t
          · subst ht; rw [fdUpd_same, hc]; simp [hn]
            exact fun he => he.symm
          · rw [fdUpd_ne _ _ ht]; simp [ht]
      · intro k m n' h1 h2 h3
        exact (app_closed hf (by simp) n').2 (h.lent k m n' h1 h2 h3)
      · intro t' d h1 h2
        by_cases ht : t' = t
        · subst ht; dsimp only at h1; rw [fdUpd_same] at h1; cases h1; rfl
        · dsimp only at h1; rw [fdUpd_ne _ _ ht] at h1; exact h.accepting t' d h1 h2
      · intro t' d h1
        by_cases ht : t' = t
        · subst ht; dsimp only at h1; rw [fdUpd_same] at h1; cases h1; exact h.nodup t' c hc
        · dsimp only at h1; rw [fdUpd_ne _ _ ht] at h1; exact h.nodup t' d h1

/-- Closing the listening descriptors one after the other. -/
theorem closeList_ok (t : Nat) (l : List Nat) : ∀ (s : FdSys) (c : FdServer), FdInv s → s.servers t = some c → c.listen = l →
    ∃ s1, FdSys.closeList (.listen t) l s = .ok s1 ∧ s1.servers = s.servers ∧
      FdKeep s { s1 with servers := fdUpd s1.servers t (some { c with listen := [] }) } := by
  induction l with
  | nil =>
    intro s c h hc hl
    exact ⟨s, rfl, rfl, server_set h { c with listen := [] } hc hl.symm rfl (h.accepting t c hc)⟩
  | cons n l ih =>
    intro s c h hc hl
    have hf : s.fds n = .listen t := (h.own n (.listen t) (by simp) (by simp)).2 ⟨c, hc, by rw [hl]; simp⟩
    have hnd := h.nodup t c hc
    rw [hl, List.nodup_cons] at hnd
    have hk : FdKeep s { s with fds := fdUpd s.fds n .free, servers := fdUpd s.servers t (some { c with listen := l }) } := by
      refine ⟨{ h with own := ?_, lent := ?_, accepting := ?_, nodup := ?_ }, app_closed hf (by simp), rfl, rfl, rfl⟩
      · refine h.own.closed (n := n) hf rfl fun o' n' => ?_
        cases o' <;> simp only [FdSys.held, reduceCtorEq, false_and, not_false_eq_true, and_true]
        · rename_i t'
          by_cases ht : t' = t
          · subst ht; rw [fdUpd_same, hc]; simp [hl]
            constructor
            · intro hm
              have : n' ≠ n := fun he => hnd.1 (he ▸ hm)
              exact ⟨.inr hm, this⟩
            · rintro ⟨h1 | h1, h2⟩
              · exact absurd h1 h2
              · exact h1
          · rw [fdUpd_ne _ _ ht]; simp [ht]
        · rename_i t'
          by_cases ht : t' = t
          · subst ht; rw [fdUpd_same, hc]; simp
          · rw [fdUpd_ne _ _ ht]
      · intro k m n' h1 h2 h3
        exact (app_closed hf (by simp) n').2 (h.lent k m n' h1 h2 h3)
      · intro t' d h1 h2
        by_cases ht : t' = t
        · subst ht; dsimp only at h1; rw [fdUpd_same] at h1; cases h1; exact h.accepting t' c hc h2
        · dsimp only at h1; rw [fdUpd_ne _ _ ht] at h1; exact h.accepting t' d h1 h2
      · intro t' d h1
        by_cases ht : t' = t
        · subst ht; dsimp only at h1; rw [fdUpd_same] at h1; cases h1; exact hnd.2
        · dsimp only at h1; rw [fdUpd_ne _ _ ht] at h1; exact h.nodup t' d h1
    obtain ⟨s1, h1, h2, h3⟩ := ih _ { c with listen := l } hk.inv (fdUpd_same _ _ _) rfl
    unfold FdSys.closeList
    rw [kclose_eq hf]
    dsimp only
    -- the list of sockets plays no part in closing
    have hsrv : ∀ (l : List Nat) (s : FdSys) (v : Nat → Option FdServer) (s1 : FdSys), FdSys.closeList (.listen t) l { s with servers := v } = .ok s1 →
        FdSys.closeList (.listen t) l s = .ok { s1 with servers := s.servers } := by
      intro l
      induction l with
      | nil => intro s v s1 he; unfold FdSys.closeList at he ⊢; cases he; rfl
      | cons n l ih =>
        intro s v s1 he
        unfold FdSys.closeList FdSys.kclose at he ⊢
        dsimp only at he ⊢
        by_cases hn : s.fds n = .listen t
        · rw [if_pos hn] at he ⊢
          dsimp only at he ⊢
          exact ih { s with fds := fdUpd s.fds n .free } v s1 he
        · rw [if_neg hn] at he
          cases he
    have h4 := hsrv l { s with fds := fdUpd s.fds n .free } _ s1 h1
    refine ⟨_, h4, rfl, ?_⟩
    have h5 := hk.trans h3
    rw [h2] at h5
    dsimp only at h5 ⊢
    rw [fdUpd_fdUpd] at h5
    exact h5

theorem serverCloseAll_ok {s : FdSys} (h : FdInv s) (t : Nat) : ∃ s', s.serverCloseAll t = .ok s' ∧ FdKeep s s' ∧
    s'.servers t = (s.servers t).map fun c => { c with conn := none, listen := [] } := by
  unfold FdSys.serverCloseAll
  obtain ⟨s1, h1, h2, h3⟩ := serverClose_ok h t
  rw [h1]
  dsimp only
  cases hc : s.servers t with
  | none =>
    rw [hc] at h3
    change s1.servers t = none at h3
    rw [h3]
    exact ⟨s1, rfl, h2, h3⟩
  | some c =>
    rw [hc] at h3
    change s1.servers t = some _ at h3
    rw [h3]
    dsimp only
    obtain ⟨s2, h4, h5, h6⟩ := closeList_ok t c.listen s1 { c with conn := none } h2.inv h3 rfl
    rw [h4]
    exact ⟨_, rfl, h2.trans h6, fdUpd_same _ _ _⟩

theorem serverDrop_ok {s : FdSys} (h : FdInv s) (t : Nat) : ∃ s', s.serverDrop t = .ok s' ∧ FdKeep s s' ∧ s'.servers t = none := by
  unfold FdSys.serverDrop
  obtain ⟨s1, h1, h2, h3⟩ := serverCloseAll_ok h t
  rw [h1]
  refine ⟨_, rfl, ?_, fdUpd_same _ _ _⟩
  cases hc : s.servers t with
  | none =>
    rw [hc] at h3
    have : fdUpd s1.servers t none = s1.servers := fdUpd_id h3
    rw [this]
    exact h2
  | some c =>
    rw [hc] at h3
    exact h2.trans (server_none h2.inv h3 rfl rfl)

theorem serverNew_ok {s : FdSys} (h : FdInv s) (t : Nat) : ∃ s', s.serverNew t = .ok s' ∧ FdKeep s s' := by
  unfold FdSys.serverNew
  obtain ⟨s1, h1, h2, h3⟩ := serverDrop_ok h t
  rw [h1]
  exact ⟨_, rfl, h2.trans (server_make h2.inv h3)⟩

theorem serverListen_ok {s : FdSys} (h : FdInv s) (t : Nat) : FdKeep s (s.serverListen t) := by
  unfold FdSys.serverListen
  cases hc : s.servers t with
  | none => exact .rfl h
  | some c =>
    dsimp only
    split
    · exact .rfl h
    · exact server_set h { c with listening := true } hc rfl rfl (h.accepting t c hc)

theorem serverListened_ok {s : FdSys} (h : FdInv s) (t : Nat) : FdKeep s (s.serverListened t) := by
  unfold FdSys.serverListened
  cases hc : s.servers t with
  | none => exact .rfl h
  | some c => exact server_set h { c with listening := false } hc rfl rfl (h.accepting t c hc)

theorem serverTry_ok {s : FdSys} (h : FdInv s) (t : Nat) (r : Option Nat) (ok : Bool) : ∃ s', s.serverTry t r ok = .ok s' ∧ FdKeep s s' := by
  unfold FdSys.serverTry
  cases hc : s.servers t with
  | none => exact ⟨s, rfl, .rfl h⟩
  | some c =>
    dsimp only
    split
    · exact ⟨s, rfl, .rfl h⟩
    · rcases kopen_cases s (.listen t) r with he | ⟨n, hf, he⟩
      · rw [he]; exact ⟨s, rfl, .rfl h⟩
      · rw [he]
        dsimp only
        split
        · refine ⟨_, rfl, ⟨{ h with own := ?_, lent := ?_, accepting := ?_, nodup := ?_ }, app_opened hf (by simp), rfl, rfl, rfl⟩⟩
          · refine h.own.opened (n := n) (o := .listen t) hf rfl (by simp) fun o' n' => ?_
            cases o' <;> simp only [FdSys.held, reduceCtorEq, false_and, or_false]
            · rename_i t'
              by_cases ht : t' = t
              · subst ht; rw [fdUpd_same, hc]; simp
              · rw [fdUpd_ne _ _ ht]; simp [ht]
            · rename_i t'
              by_cases ht : t' = t
              · subst ht; rw [fdUpd_same, hc]; simp
              · rw [fdUpd_ne _ _ ht]
          · intro k m n' h1 h2 h3
            exact (app_opened hf (by simp) n').2 (h.lent k m n' h1 h2 h3)
          · intro t' d h1 h2
            by_cases ht : t' = t
            · subst ht; dsimp only at h1; rw [fdUpd_same] at h1; cases h1; exact h.accepting t' c hc h2
            · dsimp only at h1; rw [fdUpd_ne _ _ ht] at h1; exact h.accepting t' d h1 h2
          · intro t' d h1
            by_cases ht : t' = t
            · subst ht; dsimp only at h1; rw [fdUpd_same] at h1; cases h1
              dsimp only
              rw [List.nodup_append]
              refine ⟨h.nodup t' c hc, by simp, ?_⟩
              intro a ha b hb he
              rw [List.mem_singleton.1 hb] at he
              subst he
              have := (h.own a (.listen t') (by simp) (by simp)).2 ⟨c, hc, ha⟩
              rw [hf] at this
              cases this
            · dsimp only at h1; rw [fdUpd_ne _ _ ht] at h1; exact h.nodup t' d h1
        · rw [open_close hf]; exact ⟨s, rfl, .rfl h⟩

theorem serverEnter_ok {s : FdSys} (h : FdInv s) (t : Nat) : ∃ s', s.serverEnter t = .ok s' ∧ FdKeep s s' := by
  unfold FdSys.serverEnter
  obtain ⟨s1, h1, h2, h3⟩ := serverClose_ok h t
  rw [h1]
  dsimp only
  cases hc : s.servers t with
  | none =>
    rw [hc] at h3
    change s1.servers t = none at h3
    rw [h3]; exact ⟨s1, rfl, h2⟩
  | some c =>
    rw [hc] at h3
    change s1.servers t = some _ at h3
    rw [h3]
    exact ⟨_, rfl, h2.trans (server_set h2.inv { c with conn := none, accepting := true } h3 rfl rfl (fun _ => rfl))⟩

theorem serverAccept_ok {s : FdSys} (h : FdInv s) (t : Nat) (r : Option Nat) : FdKeep s (s.serverAccept t r) := by
  unfold FdSys.serverAccept
  cases hc : s.servers t with
  | none => exact .rfl h
  | some c =>
    dsimp only
    split
    · exact .rfl h
    · rename_i hb
      have hn : c.conn = none := by
        refine h.accepting t c hc ?_
        cases ha : c.accepting with
        | true => rfl
        | false => exact absurd (.inl ha) hb
      rcases kopen_cases s (.conn t) r with he | ⟨n, hf, he⟩
      · rw [he]; exact .rfl h
      · rw [he]
        dsimp only
        refine ⟨{ h with own := ?_, lent := ?_, accepting := ?_, nodup := ?_ }, app_opened hf (by simp), rfl, rfl, rfl⟩
        · refine h.own.opened (n := n) (o := .conn t) hf rfl (by simp) fun o' n' => ?_
          cases o' <;> simp only [FdSys.held, reduceCtorEq, false_and, or_false]
          · rename_i t'
            by_cases ht : t' = t
            · subst ht; rw [fdUpd_same, hc]; simp
            · rw [fdUpd_ne _ _ ht]
          · rename_i t'
            by_cases ht : t' = t
            · subst ht; rw [fdUpd_same, hc]; simp [hn]; exact eq_comm
            · rw [fdUpd_ne _ _ ht]; simp [ht]
        · intro k m n' h1 h2 h3
          exact (app_opened hf (by simp) n').2 (h.lent k m n' h1 h2 h3)
        · intro t' d h1 h2
          by_cases ht : t' = t
          · subst ht; dsimp only at h1; rw [fdUpd_same] at h1; cases h1; cases h2
          · dsimp only at h1; rw [fdUpd_ne _ _ ht] at h1; exact h.accepting t' d h1 h2
        · intro t' d h1
          by_cases ht : t' = t
          · subst ht; dsimp only at h1; rw [fdUpd_same] at h1; cases h1; exact h.nodup t' c hc
          · dsimp only at h1; rw [fdUpd_ne _ _ ht] at h1; exact h.nodup t' d h1

theorem useList_ok {s : FdSys} (o : FdOwner) (l : List Nat) (h : ∀ n ∈ l, s.fds n = o) : FdSys.useList o l s = .ok s := by
  induction l with
  | nil => rfl
  | cons n l ih =>
    unfold FdSys.useList
    rw [kuse_eq (h n (by simp))]
    exact ih fun m hm => h m (by simp [hm])

theorem serverUse_ok {s : FdSys} (h : FdInv s) (t : Nat) : ∃ s', s.serverUse t = .ok s' ∧ FdKeep s s' := by
  unfold FdSys.serverUse
  cases hc : s.servers t with
  | none => exact ⟨s, rfl, .rfl h⟩
  | some c =>
    dsimp only
    rw [useList_ok (.listen t) c.listen fun n hn => (h.own n (.listen t) (by simp) (by simp)).2 ⟨c, hc, hn⟩]
    dsimp only
    cases hn : c.conn with
    | none => exact ⟨s, rfl, .rfl h⟩
    | some n =>
      dsimp only
      rw [kuse_eq ((h.own n (.conn t) (by simp) (by simp)).2 ⟨c, hc, hn⟩)]
      exact ⟨s, rfl, .rfl h⟩

theorem serverFinish_ok {s : FdSys} (h : FdInv s) (t : Nat) (j : Bool) : ∃ s', s.serverFinish t j = .ok s' ∧ FdKeep s s' := by
  unfold FdSys.serverFinish
  cases j with
  | true => obtain ⟨s1, h1, h2, -⟩ := serverCloseAll_ok h t; exact ⟨s1, h1, h2⟩
  | false => obtain ⟨s1, h1, h2, -⟩ := serverClose_ok h t; exact ⟨s1, h1, h2⟩

/-! ### Sources -/

/-- Changing a source without changing its descriptor. -/
theorem src_set {s : FdSys} (h : FdInv s) {i : Nat} {x : FdSrc} (y : FdSrc) (hx : s.srcs i = some x) (h1 : y.file = x.file)
    (h2 : y.fd = x.fd) (h3 : y.held = x.held) (h4 : y.fd ≠ none → y.ctx = true) (h5 : y.ctx = true → y.read = true → y.fd ≠ none) :
    FdKeep s { s with srcs := fdUpd s.srcs i (some y) } := by
  have key : ∀ j z, fdUpd s.srcs i (some y) j = some z → (j = i ∧ z = y) ∨ s.srcs j = some z := by
    intro j z hz
    by_cases hj : j = i
    · subst hj; rw [fdUpd_same] at hz; cases hz; exact .inl ⟨rfl, rfl⟩
    · rw [fdUpd_ne _ _ hj] at hz; exact .inr hz
  refine ⟨{ h with own := ?_, srcBound := ?_, srcFile := ?_, srcFd := ?_, ctx := ?_, cache := ?_, idle := ?_, heldCur := ?_, curHeld := ?_ },
    AppSame.rfl, rfl, rfl, rfl⟩
  · refine h.own.same rfl fun o' n' => ?_
    cases o' <;> simp only [FdSys.held]
    rename_i j
    by_cases hj : j = i
    · subst hj; rw [fdUpd_same, hx]; simp [h1, h2]
    · rw [fdUpd_ne _ _ hj]
  · intro j hj
    have : j ≠ i := by
      rintro rfl
      have := h.srcBound j hj
      rw [hx] at this; cases this
    dsimp only
    rw [fdUpd_ne _ _ this]
    exact h.srcBound j hj
  · intro j z hz
    rcases key j z hz with ⟨rfl, rfl⟩ | hz
    · rw [h1]; exact h.srcFile j x hx
    · exact h.srcFile j z hz
  · intro j z m n hz hm hn
    rcases key j z hz with ⟨rfl, rfl⟩ | hz
    · rw [h1] at hm; rw [h2]; exact h.srcFd j x m n hx hm hn
    · exact h.srcFd j z m n hz hm hn
  · intro j z hz
    rcases key j z hz with ⟨rfl, rfl⟩ | hz
    · exact h4
    · exact h.ctx j z hz
  · intro j z hz
    rcases key j z hz with ⟨rfl, rfl⟩ | hz
    · exact h5
    · exact h.cache j z hz
  · intro j z hz
    rcases key j z hz with ⟨rfl, rfl⟩ | hz
    · rw [h2, h3]; exact h.idle j x hx
    · exact h.idle j z hz
  · intro j z hz
    rcases key j z hz with ⟨rfl, rfl⟩ | hz
    · rw [h3]; exact h.heldCur j x hx
    · exact h.heldCur j z hz
  · intro t j hj
    obtain ⟨z, hz, hz2⟩ := h.curHeld t j hj
    by_cases hji : j = i
    · subst hji
      rw [hx] at hz; cases hz
      exact ⟨y, fdUpd_same _ _ _, by rw [h3]; exact hz2⟩
    · refine ⟨z, ?_, hz2⟩
      dsimp only
      rw [fdUpd_ne _ _ hji]; exact hz

/-- A thread takes a source. -/
theorem src_hold {s : FdSys} (h : FdInv s) {t i : Nat} {x : FdSrc} (hx : s.srcs i = some x) (hh : x.held = false) (ht : s.cur t = none) :
    FdKeep s { s with srcs := fdUpd s.srcs i (some { x with held := true }), cur := fdUpd s.cur t (some i) } := by
  have key : ∀ j z, fdUpd s.srcs i (some { x with held := true }) j = some z → (j = i ∧ z = { x with held := true }) ∨ (j ≠ i ∧ s.srcs j = some z) := by
    intro j z hz
    by_cases hj : j = i
    · subst hj; rw [fdUpd_same] at hz; cases hz; exact .inl ⟨rfl, rfl⟩
    · rw [fdUpd_ne _ _ hj] at hz; exact .inr ⟨hj, hz⟩
  have free : ∀ t', s.cur t' ≠ some i := by
    intro t' he
    obtain ⟨z, hz, hz2⟩ := h.curHeld t' i he
    rw [hx] at hz; cases hz
    rw [hh] at hz2; cases hz2
  refine ⟨{ h with own := ?_, srcBound := ?_, srcFile := ?_, srcFd := ?_, ctx := ?_, cache := ?_, idle := ?_, heldCur := ?_, curHeld := ?_, curInj := ?_ },
    AppSame.rfl, rfl, rfl, rfl⟩
  · refine h.own.same rfl fun o' n' => ?_
    cases o' <;> simp only [FdSys.held]
    rename_i j
    by_cases hj : j = i
    · subst hj; rw [fdUpd_same, hx]; simp
    · rw [fdUpd_ne _ _ hj]
  · intro j hj
    have : j ≠ i := by
      rintro rfl
      have := h.srcBound j hj
      rw [hx] at this; cases this
    dsimp only
    rw [fdUpd_ne _ _ this]
    exact h.srcBound j hj
  · intro j z hz
    rcases key j z hz with ⟨rfl, rfl⟩ | ⟨-, hz⟩
    · exact h.srcFile j x hx
    · exact h.srcFile j z hz
  · intro j z m n hz hm hn
    rcases key j z hz with ⟨rfl, rfl⟩ | ⟨-, hz⟩
    · exact h.srcFd j x m n hx hm hn
    · exact h.srcFd j z m n hz hm hn
  · intro j z hz
    rcases key j z hz with ⟨rfl, rfl⟩ | ⟨-, hz⟩
    · exact h.ctx j x hx
    · exact h.ctx j z hz
  · intro j z hz
    rcases key j z hz with ⟨rfl, rfl⟩ | ⟨-, hz⟩
    · exact h.cache j x hx
    · exact h.cache j z hz
  · intro j z hz
    rcases key j z hz with ⟨rfl, rfl⟩ | ⟨-, hz⟩
    · intro he; cases he
    · exact h.idle j z hz
  · intro j z hz hz2
    rcases key j z hz with ⟨rfl, rfl⟩ | ⟨-, hz⟩
    · exact ⟨t, fdUpd_same _ _ _⟩
    · obtain ⟨t', ht'⟩ := h.heldCur j z hz hz2
      refine ⟨t', ?_⟩
      have : t' ≠ t := by rintro rfl; rw [ht] at ht'; cases ht'
      dsimp only
      rw [fdUpd_ne _ _ this]; exact ht'
  · intro t' j hj
    dsimp only at hj
    by_cases htt : t' = t
    · subst htt
      rw [fdUpd_same] at hj; cases hj
      exact ⟨_, fdUpd_same _ _ _, rfl⟩
    · rw [fdUpd_ne _ _ htt] at hj
      obtain ⟨z, hz, hz2⟩ := h.curHeld t' j hj
      refine ⟨z, ?_, hz2⟩
      have : j ≠ i := by rintro rfl; exact free t' hj
      dsimp only
      rw [fdUpd_ne _ _ this]; exact hz
  · intro t1 t2 j h1 h2
    dsimp only at h1 h2
    by_cases ht1 : t1 = t <;> by_cases ht2 : t2 = t
    · rw [ht1, ht2]
    · subst ht1
      rw [fdUpd_same] at h1; cases h1
      rw [fdUpd_ne _ _ ht2] at h2
      exact absurd h2 (free t2)
    · subst ht2
      rw [fdUpd_same] at h2; cases h2
      rw [fdUpd_ne _ _ ht1] at h1
      exact absurd h1 (free t1)
    · rw [fdUpd_ne _ _ ht1] at h1; rw [fdUpd_ne _ _ ht2] at h2
      exact h.curInj t1 t2 j h1 h2

/-- A thread gives a source away. -/
theorem src_release {s : FdSys} (h : FdInv s) {t i : Nat} {x : FdSrc} (hx : s.srcs i = some x) (hf : x.fd = none) (ht : s.cur t = some i) :
    FdKeep s { s with srcs := fdUpd s.srcs i (some { x with held := false }), cur := fdUpd s.cur t none } := by
  have key : ∀ j z, fdUpd s.srcs i (some { x with held := false }) j = some z → (j = i ∧ z = { x with held := false }) ∨ (j ≠ i ∧ s.srcs j = some z) := by
    intro j z hz
    by_cases hj : j = i
    · subst hj; rw [fdUpd_same] at hz; cases hz; exact .inl ⟨rfl, rfl⟩
    · rw [fdUpd_ne _ _ hj] at hz; exact .inr ⟨hj, hz⟩
  refine ⟨{ h with own := ?_, srcBound := ?_, srcFile := ?_, srcFd := ?_, ctx := ?_, cache := ?_, idle := ?_, heldCur := ?_, curHeld := ?_, curInj := ?_ },
    AppSame.rfl, rfl, rfl, rfl⟩
  · refine h.own.same rfl fun o' n' => ?_
    cases o' <;> simp only [FdSys.held]
    rename_i j
    by_cases hj : j = i
    · subst hj; rw [fdUpd_same, hx]; simp
    · rw [fdUpd_ne _ _ hj]
  · intro j hj
    have : j ≠ i := by
      rintro rfl
      have := h.srcBound j hj
      rw [hx] at this; cases this
    dsimp only
    rw [fdUpd_ne _ _ this]
    exact h.srcBound j hj
  · intro j z hz
    rcases key j z hz with ⟨rfl, rfl⟩ | ⟨-, hz⟩
    · exact h.srcFile j x hx
    · exact h.srcFile j z hz
  · intro j z m n hz hm hn
    rcases key j z hz with ⟨rfl, rfl⟩ | ⟨-, hz⟩
    · exact h.srcFd j x m n hx hm hn
    · exact h.srcFd j z m n hz hm hn
  · intro j z hz
    rcases key j z hz with ⟨rfl, rfl⟩ | ⟨-, hz⟩
    · exact h.ctx j x hx
    · exact h.ctx j z hz
  · intro j z hz
    rcases key j z hz with ⟨rfl, rfl⟩ | ⟨-, hz⟩
    · exact h.cache j x hx
    · exact h.cache j z hz
  · intro j z hz
    rcases key j z hz with ⟨rfl, rfl⟩ | ⟨-, hz⟩
    · intro _; exact hf
    · exact h.idle j z hz
  · intro j z hz hz2
    rcases key j z hz with ⟨rfl, rfl⟩ | ⟨hji, hz⟩
    · cases hz2
    · obtain ⟨t', ht'⟩ := h.heldCur j z hz hz2
      refine ⟨t', ?_⟩
      have : t' ≠ t := by rintro rfl; rw [ht] at ht'; cases ht'; exact hji rfl
      dsimp only
      rw [fdUpd_ne _ _ this]; exact ht'
  · intro t' j hj
    dsimp only at hj
    by_cases htt : t' = t
    · subst htt
      rw [fdUpd_same] at hj; cases hj
    · rw [fdUpd_ne _ _ htt] at hj
      obtain ⟨z, hz, hz2⟩ := h.curHeld t' j hj
      refine ⟨z, ?_, hz2⟩
      have : j ≠ i := by rintro rfl; exact htt (h.curInj t' t j hj ht)
      dsimp only
      rw [fdUpd_ne _ _ this]; exact hz
  · intro t1 t2 j h1 h2
    dsimp only at h1 h2
    by_cases ht1 : t1 = t
    · subst ht1; rw [fdUpd_same] at h1; cases h1
    · by_cases ht2 : t2 = t
      · subst ht2; rw [fdUpd_same] at h2; cases h2
      · rw [fdUpd_ne _ _ ht1] at h1; rw [fdUpd_ne _ _ ht2] at h2
        exact h.curInj t1 t2 j h1 h2

/-- A source that no thread has is destroyed. -/
theorem src_drop {s : FdSys} (h : FdInv s) {i : Nat} {x : FdSrc} (hx : s.srcs i = some x) (hh : x.held = false) :
    FdKeep s { s with srcs := fdUpd s.srcs i none } := by
  have key : ∀ j z, fdUpd s.srcs i none j = some z → j ≠ i ∧ s.srcs j = some z := by
    intro j z hz
    by_cases hj : j = i
    · subst hj; rw [fdUpd_same] at hz; cases hz
    · rw [fdUpd_ne _ _ hj] at hz; exact ⟨hj, hz⟩
  refine ⟨{ h with own := ?_, srcBound := ?_, srcFile := ?_, srcFd := ?_, ctx := ?_, cache := ?_, idle := ?_, heldCur := ?_, curHeld := ?_ },
    AppSame.rfl, rfl, rfl, rfl⟩
  · refine h.own.same rfl fun o' n' => ?_
    cases o' <;> simp only [FdSys.held]
    rename_i j
    by_cases hj : j = i
    · subst hj; rw [fdUpd_same, hx]
      have := h.idle j x hx hh
      simp [this]
    · rw [fdUpd_ne _ _ hj]
  · intro j hj
    by_cases hji : j = i
    · subst hji; exact fdUpd_same _ _ _
    · dsimp only; rw [fdUpd_ne _ _ hji]; exact h.srcBound j hj
  · intro j z hz; exact h.srcFile j z (key j z hz).2
  · intro j z m n hz; exact h.srcFd j z m n (key j z hz).2
  · intro j z hz; exact h.ctx j z (key j z hz).2
  · intro j z hz; exact h.cache j z (key j z hz).2
  · intro j z hz; exact h.idle j z (key j z hz).2
  · intro j z hz; exact h.heldCur j z (key j z hz).2
  · intro t j hj
    obtain ⟨z, hz, hz2⟩ := h.curHeld t j hj
    refine ⟨z, ?_, hz2⟩
    have : j ≠ i := by rintro rfl; rw [hx] at hz; cases hz; rw [hh] at hz2; cases hz2
    dsimp only
    rw [fdUpd_ne _ _ this]; exact hz

/-- A source that a thread has gets a descriptor of its own (`o`), or loses it. -/
theorem src_fd {s : FdSys} (h : FdInv s) {i : Nat} {x : FdSrc} (y : FdSrc) (hx : s.srcs i = some x) {m : FdMeta} (hm : s.files x.file = some m)
    (h1 : y.file = x.file) (h3 : y.held = x.held) (h4 : y.fd ≠ none → y.ctx = true) (h5 : y.ctx = true → y.read = true → y.fd ≠ none)
    (h6 : y.held = false → y.fd = none)
    (f : Nat → FdOwner) (hown : FdSys.Own { s with fds := f, srcs := fdUpd s.srcs i (some y) }) (happ : ∀ n, f n = .app ↔ s.fds n = .app)
    (hfd : ∀ n, m.fd = some n → y.fd = none ∨ y.fd = some n) :
    FdKeep s { s with fds := f, srcs := fdUpd s.srcs i (some y) } := by
  have key : ∀ j z, fdUpd s.srcs i (some y) j = some z → (j = i ∧ z = y) ∨ s.srcs j = some z := by
    intro j z hz
    by_cases hj : j = i
    · subst hj; rw [fdUpd_same] at hz; cases hz; exact .inl ⟨rfl, rfl⟩
    · rw [fdUpd_ne _ _ hj] at hz; exact .inr hz
  refine ⟨{ h with own := hown, lent := ?_, srcBound := ?_, srcFile := ?_, srcFd := ?_, ctx := ?_, cache := ?_, idle := ?_, heldCur := ?_, curHeld := ?_ },
    happ, rfl, rfl, rfl⟩
  · intro k m' n' a b c
    exact (happ n').2 (h.lent k m' n' a b c)
  · intro j hj
    have : j ≠ i := by
      rintro rfl
      have := h.srcBound j hj
      rw [hx] at this; cases this
    dsimp only
    rw [fdUpd_ne _ _ this]
    exact h.srcBound j hj
  · intro j z hz
    rcases key j z hz with ⟨rfl, rfl⟩ | hz
    · rw [h1]; exact h.srcFile j x hx
    · exact h.srcFile j z hz
  · intro j z m' n hz hm' hn
    rcases key j z hz with ⟨rfl, rfl⟩ | hz
    · dsimp only at hm'
      rw [h1, hm] at hm'; cases hm'; exact hfd n hn
    · exact h.srcFd j z m' n hz hm' hn
  · intro j z hz
    rcases key j z hz with ⟨rfl, rfl⟩ | hz
    · exact h4
    · exact h.ctx j z hz
  · intro j z hz
    rcases key j z hz with ⟨rfl, rfl⟩ | hz
    · exact h5
    · exact h.cache j z hz
  · intro j z hz
    rcases key j z hz with ⟨rfl, rfl⟩ | hz
    · exact h6
    · exact h.idle j z hz
  · intro j z hz
    rcases key j z hz with ⟨rfl, rfl⟩ | hz
    · rw [h3]; exact h.heldCur j x hx
    · exact h.heldCur j z hz
  · intro t j hj
    obtain ⟨z, hz, hz2⟩ := h.curHeld t j hj
    by_cases hji : j = i
    · subst hji
      rw [hx] at hz; cases hz
      exact ⟨y, fdUpd_same _ _ _, by rw [h3]; exact hz2⟩
    · refine ⟨z, ?_, hz2⟩
      dsimp only
      rw [fdUpd_ne _ _ hji]; exact hz

/-- The descriptor of a source is open for what it should be. -/
theorem src_owner {s : FdSys} (h : FdInv s) {i : Nat} {x : FdSrc} (hx : s.srcs i = some x) {m : FdMeta} (hm : s.files x.file = some m)
    {n : Nat} (hn : x.fd = some n) : s.fds n = srcOwner i x m := by
  unfold srcOwner
  by_cases h1 : m.fd = none
  · rw [if_pos h1]
    refine (h.own n (.src i) (by simp) (by simp)).2 ⟨x, hx, hn, ?_⟩
    intro m' hm'; rw [hm] at hm'; cases hm'; exact h1
  · rw [if_neg h1]
    obtain ⟨n', hn'⟩ := Option.ne_none_iff_exists'.1 h1
    have : n' = n := by
      rcases h.srcFd i x m n' hx hm hn' with h2 | h2
      · rw [hn] at h2; cases h2
      · rw [hn] at h2; cases h2; rfl
    subst this
    cases h2 : m.needToClose with
    | true => exact (h.own n' (.file x.file) (by simp) (by simp)).2 ⟨m, hm, h2, hn'⟩
    | false => exact h.lent x.file m n' hm h2 hn'

theorem clearCache_ok {s : FdSys} (h : FdInv s) {i : Nat} {x : FdSrc} (hx : s.srcs i = some x) {m : FdMeta} (hm : s.files x.file = some m)
    (adv : Bool) : s.clearCache i x m adv = .ok s := by
  unfold FdSys.clearCache
  split
  · rename_i hc
    obtain ⟨n, hn⟩ := Option.ne_none_iff_exists'.1 (h.cache i x hx hc.2.1 hc.2.2)
    rw [hn]
    exact kuse_eq (src_owner h hx hm hn)
  · rfl

/-- Closing a source that has no descriptor. -/
theorem srcClose_idle {s : FdSys} {i : Nat} {x : FdSrc} {m : FdMeta} (hm : s.files x.file = some m) (hf : x.fd = none)
    (hc : x.ctx = true → x.read = true → False) (adv : Bool) : s.srcClose i x adv = .ok (s, { x with ctx := false }) := by
  unfold FdSys.srcClose
  rw [hm]
  dsimp only
  have : s.clearCache i x m adv = .ok s := by
    unfold FdSys.clearCache
    rw [if_neg (fun h => hc h.2.1 h.2.2)]
  rw [this]
  dsimp only
  rw [hf]
  have hx : { x with fd := none, ctx := false } = { x with ctx := false } := by cases x; simp_all
  rw [hx, ite_self]

/-- Closing a source. -/
theorem srcClose_ok {s : FdSys} (h : FdInv s) {i : Nat} {x : FdSrc} (hx : s.srcs i = some x) (adv : Bool) :
    ∃ f, s.srcClose i x adv = .ok ({ s with fds := f }, { x with fd := none, ctx := false }) ∧
      FdKeep s { s with fds := f, srcs := fdUpd s.srcs i (some { x with fd := none, ctx := false }) } := by
  obtain ⟨m, hm⟩ := h.srcFile i x hx
  unfold FdSys.srcClose
  rw [hm]
  dsimp only
  rw [clearCache_ok h hx hm adv]
  dsimp only
  by_cases h1 : m.fd = none
  · rw [if_neg (by simp [h1])]
    cases hn : x.fd with
    | none =>
      refine ⟨s.fds, ?_, src_fd h { x with fd := none, ctx := false } hx hm rfl rfl (by simp) (by simp) (fun _ => rfl) s.fds ?_ (fun _ => Iff.rfl) (fun _ _ => .inl rfl)⟩
      · congr
      · refine h.own.same rfl fun o' n' => ?_
        cases o' <;> simp only [FdSys.held]
        rename_i j
        by_cases hj : j = i
        · subst hj; rw [fdUpd_same, hx]; simp [hn]
        · rw [fdUpd_ne _ _ hj]
    | some n =>
      have hctx := h.ctx i x hx (by simp [hn])
      have hf : s.fds n = .src i := (h.own n (.src i) (by simp) (by simp)).2 ⟨x, hx, hn, fun m' hm' => by rw [hm] at hm'; cases hm'; exact h1⟩
      dsimp only
      rw [if_neg (by simp [hctx]), kclose_eq hf]
      refine ⟨_, rfl, src_fd h { x with fd := none, ctx := false } hx hm rfl rfl (by simp) (by simp) (fun _ => rfl) _ ?_ (app_closed hf (by simp)) (fun _ _ => .inl rfl)⟩
      refine h.own.closed (n := n) hf rfl fun o' n' => ?_
      cases o' <;> simp only [FdSys.held, reduceCtorEq, false_and, not_false_eq_true, and_true]
      rename_i j
      by_cases hj : j = i
      · subst hj; rw [fdUpd_same, hx]; simp [hn]
        exact fun he _ => he.symm
      · rw [fdUpd_ne _ _ hj]; simp [hj]
  · rw [if_pos h1]
    refine ⟨s.fds, rfl, src_fd h { x with fd := none, ctx := false } hx hm rfl rfl (by simp) (by simp) (fun _ => rfl) s.fds ?_ (fun _ => Iff.rfl) (fun _ _ => .inl rfl)⟩
    refine h.own.same rfl fun o' n' => ?_
    cases o' <;> simp only [FdSys.held]
    rename_i j
    by_cases hj : j = i
    · subst hj; rw [fdUpd_same, hx]
      simp [hm, h1]
    · rw [fdUpd_ne _ _ hj]

theorem dropSrc_ok {s : FdSys} (h : FdInv s) (i : Nat) (adv : Bool) : ∃ s', s.dropSrc i adv = .ok s' ∧ FdKeep s s' ∧
    (s' = s ∧ (s.srcs i).elim true (·.held) = true ∨ s' = { s with srcs := fdUpd s.srcs i none }) := by
  unfold FdSys.dropSrc
  cases hx : s.srcs i with
  | none => exact ⟨s, rfl, .rfl h, .inl ⟨rfl, rfl⟩⟩
  | some x =>
    dsimp only
    cases hh : x.held with
    | true => exact ⟨s, rfl, .rfl h, .inl ⟨rfl, hh⟩⟩
    | false =>
      obtain ⟨m, hm⟩ := h.srcFile i x hx
      have hf := h.idle i x hx hh
      rw [srcClose_idle hm hf (fun a b => h.cache i x hx a b hf)]
      exact ⟨_, rfl, src_drop h hx hh, .inr rfl⟩

theorem take_ok {s : FdSys} (h : FdInv s) (t i : Nat) (adv : Bool) (r : Option Nat) : ∃ s', s.take t i adv r = .ok s' ∧ FdKeep s s' := by
  unfold FdSys.take
  cases ht : s.cur t with
  | some _ => exact ⟨s, rfl, .rfl h⟩
  | none =>
    cases hx : s.srcs i with
    | none => exact ⟨s, rfl, .rfl h⟩
    | some x =>
      dsimp only
      cases hh : x.held with
      | true => exact ⟨s, rfl, .rfl h⟩
      | false =>
        obtain ⟨m, hm⟩ := h.srcFile i x hx
        have hf := h.idle i x hx hh
        unfold FdSys.srcOpen
        rw [hm]
        dsimp only
        cases hd : m.del with
        | true =>
          exact ⟨_, rfl, src_hold h hx hh ht⟩
        | false =>
          have hcl : s.srcClose i { x with read := false } adv = .ok (s, { x with read := false, ctx := false }) :=
            srcClose_idle (x := { x with read := false }) hm hf (by simp) adv
          rw [hcl]
          dsimp only
          have hk := src_hold h hx hh ht
          cases hmf : m.fd with
          | some n =>
            refine ⟨_, rfl, hk.trans ?_⟩
            have := src_fd hk.inv { x with read := false, ctx := true, fd := some n, held := true } (i := i) (fdUpd_same _ _ _) hm rfl rfl (by simp) (by simp) (by simp)
              s.fds ?_ (fun _ => Iff.rfl) (fun n' hn' => .inr (by rw [hmf] at hn'; exact hn'))
            · dsimp only at this
              rw [fdUpd_fdUpd] at this
              exact this
            · refine hk.inv.own.same rfl fun o' n' => ?_
              cases o' <;> simp only [FdSys.held]
              rename_i j
              by_cases hj : j = i
              · subst hj; rw [fdUpd_same, fdUpd_same]; simp [hm, hmf]
              · rw [fdUpd_ne _ _ hj]
          | none =>
            dsimp only
            rcases kopen_cases s (.src i) r with he | ⟨n, hfr, he⟩
            · rw [he]
              dsimp only [Option.isSome]
              have h2 : s.srcClose i { file := x.file, fd := none, ctx := true, read := false, held := x.held } adv = .ok (s, { x with fd := none, read := false, ctx := false }) :=
                srcClose_idle (x := { file := x.file, fd := none, ctx := true, read := false, held := x.held }) hm rfl (by simp) adv
              have h3 : s.srcClose i { x with fd := none, read := false, ctx := false } adv = .ok (s, { x with fd := none, read := false, ctx := false }) :=
                srcClose_idle (x := { x with fd := none, read := false, ctx := false }) hm rfl (by simp) adv
              simp only [Bool.false_eq_true, if_false]
              rw [h2]
              dsimp only
              rw [h3]
              exact ⟨_, rfl, src_drop h hx hh⟩
            · rw [he]
              dsimp only [Option.isSome]
              refine ⟨_, rfl, hk.trans ?_⟩
              have := src_fd hk.inv { x with read := false, ctx := true, fd := some n, held := true } (i := i) (fdUpd_same _ _ _) hm rfl rfl (by simp) (by simp) (by simp)
                (fdUpd s.fds n (.src i)) ?_ (app_opened hfr (by simp)) (fun n' hn' => by rw [hmf] at hn'; cases hn')
              · dsimp only at this
                rw [fdUpd_fdUpd] at this
                exact this
              · refine hk.inv.own.opened (n := n) (o := .src i) hfr rfl (by simp) fun o' n' => ?_
                cases o' <;> simp only [FdSys.held, reduceCtorEq, false_and, or_false]
                rename_i j
                by_cases hj : j = i
                · subst hj; rw [fdUpd_same, fdUpd_same]; simp [hf, hm, hmf]
                  exact eq_comm
                · rw [fdUpd_ne _ _ hj]; simp [hj]

theorem readSrc_ok {s : FdSys} (h : FdInv s) (t : Nat) (adv ok : Bool) : ∃ s', s.readSrc t adv ok = .ok s' ∧ FdKeep s s' := by
  unfold FdSys.readSrc
  cases ht : s.cur t with
  | none => exact ⟨s, rfl, .rfl h⟩
  | some i =>
    obtain ⟨x, hx, hh⟩ := h.curHeld t i ht
    obtain ⟨m, hm⟩ := h.srcFile i x hx
    dsimp only
    rw [hx]
    dsimp only
    rw [hm]
    dsimp only
    cases hn : x.fd with
    | none => exact ⟨s, rfl, .rfl h⟩
    | some n =>
      have hctx := h.ctx i x hx (by simp [hn])
      dsimp only
      rw [if_neg (by simp [hctx]), kuse_eq (src_owner h hx hm hn)]
      dsimp only
      cases ok with
      | true =>
        have := src_set h { x with read := true } hx rfl rfl rfl (fun _ => hctx) (fun _ _ => by simp [hn])
        exact ⟨_, rfl, by rw [hn] at this; exact this⟩
      | false =>
        obtain ⟨f, h1, h2⟩ := srcClose_ok h hx adv
        rw [if_neg (by simp), h1]
        exact ⟨_, rfl, h2⟩

theorem putSrc_ok {s : FdSys} (h : FdInv s) (t : Nat) (adv : Bool) : ∃ s', s.putSrc t adv = .ok s' ∧ FdKeep s s' := by
  unfold FdSys.putSrc
  cases ht : s.cur t with
  | none => exact ⟨s, rfl, .rfl h⟩
  | some i =>
    obtain ⟨x, hx, hh⟩ := h.curHeld t i ht
    dsimp only
    rw [hx]
    dsimp only
    obtain ⟨f, h1, h2⟩ := srcClose_ok h hx adv
    rw [h1]
    refine ⟨_, rfl, h2.trans ?_⟩
    have := src_release h2.inv (t := t) (i := i) (fdUpd_same _ _ _) rfl ht
    dsimp only at this
    rw [fdUpd_fdUpd] at this
    exact this

/-! ### Files of a queue -/

/-- A file is added whose descriptor, if any, is the application's. -/
theorem file_add {s : FdSys} (h : FdInv s) (m : FdMeta) (hc : m.needToClose = false) (hl : ∀ n, m.fd = some n → s.fds n = .app)
    (hd : m.del = true → m.fd = none) :
    FdInv { s with files := fdUpd s.files s.nfile (some m), nfile := s.nfile + 1 } := by
  have hne : ∀ k m', s.files k = some m' → k ≠ s.nfile := by
    rintro k m' hk rfl
    rw [h.fileBound s.nfile (Nat.le_refl _)] at hk; cases hk
  have key : ∀ k m', fdUpd s.files s.nfile (some m) k = some m' → (k = s.nfile ∧ m' = m) ∨ s.files k = some m' := by
    intro k m' hk
    by_cases hk2 : k = s.nfile
    · subst hk2; rw [fdUpd_same] at hk; cases hk; exact .inl ⟨rfl, rfl⟩
    · rw [fdUpd_ne _ _ hk2] at hk; exact .inr hk
  have src : ∀ i x, s.srcs i = some x → fdUpd s.files s.nfile (some m) x.file = s.files x.file := by
    intro i x hx
    obtain ⟨m', hm'⟩ := h.srcFile i x hx
    rw [fdUpd_ne _ _ (hne _ _ hm')]
  refine { h with own := ?_, lent := ?_, fileBound := ?_, del := ?_, srcFile := ?_, srcFd := ?_ }
  · refine h.own.same rfl fun o' n' => ?_
    cases o' <;> simp only [FdSys.held]
    · rename_i k
      by_cases hk : k = s.nfile
      · subst hk; rw [fdUpd_same, h.fileBound s.nfile (Nat.le_refl _)]; simp [hc]
      · rw [fdUpd_ne _ _ hk]
    · constructor
      · rintro ⟨x, hx, a, b⟩; exact ⟨x, hx, a, by rw [src _ x hx] at b; exact b⟩
      · rintro ⟨x, hx, a, b⟩; exact ⟨x, hx, a, by rw [src _ x hx]; exact b⟩
  · intro k m' n hk a b
    rcases key k m' hk with ⟨rfl, rfl⟩ | hk
    · exact hl n b
    · exact h.lent k m' n hk a b
  · intro k hk
    dsimp only at hk ⊢
    rw [fdUpd_ne _ _ (by omega)]
    exact h.fileBound k (by omega)
  · intro k m' hk
    rcases key k m' hk with ⟨rfl, rfl⟩ | hk
    · exact hd
    · exact h.del k m' hk
  · intro i x hx
    dsimp only
    rw [src i x hx]; exact h.srcFile i x hx
  · intro i x m' n hx hm hn
    dsimp only at hm
    rw [src i x hx] at hm; exact h.srcFd i x m' n hx hm hn

/-- A file is added that discovery has opened. -/
theorem file_add_open {s : FdSys} (h : FdInv s) (q : Nat) {n : Nat} (hf : s.fds n = .free) :
    FdInv { s with fds := fdUpd s.fds n (.file s.nfile), files := fdUpd s.files s.nfile (some { q := q, fd := some n, needToClose := true, del := false }), nfile := s.nfile + 1 } := by
  have hne : ∀ k m', s.files k = some m' → k ≠ s.nfile := by
    rintro k m' hk rfl
    rw [h.fileBound s.nfile (Nat.le_refl _)] at hk; cases hk
  have key : ∀ k m', fdUpd s.files s.nfile (some { q := q, fd := some n, needToClose := true, del := false }) k = some m' →
      (k = s.nfile ∧ m' = { q := q, fd := some n, needToClose := true, del := false }) ∨ s.files k = some m' := by
    intro k m' hk
    by_cases hk2 : k = s.nfile
    · subst hk2; rw [fdUpd_same] at hk; cases hk; exact .inl ⟨rfl, rfl⟩
    · rw [fdUpd_ne _ _ hk2] at hk; exact .inr hk
  have src : ∀ i x (v : Option FdMeta), s.srcs i = some x → fdUpd s.files s.nfile v x.file = s.files x.file := by
    intro i x v hx
    obtain ⟨m', hm'⟩ := h.srcFile i x hx
    rw [fdUpd_ne _ _ (hne _ _ hm')]
  refine { h with own := ?_, lent := ?_, fileBound := ?_, del := ?_, srcFile := ?_, srcFd := ?_ }
  · refine h.own.opened (n := n) (o := .file s.nfile) hf rfl (by simp) fun o' n' => ?_
    cases o' <;> simp only [FdSys.held, reduceCtorEq, false_and, or_false]
    · rename_i k
      by_cases hk : k = s.nfile
      · subst hk; rw [fdUpd_same, h.fileBound s.nfile (Nat.le_refl _)]; simp; exact eq_comm
      · rw [fdUpd_ne _ _ hk]; simp [hk]
    · constructor
      · rintro ⟨x, hx, a, b⟩; exact ⟨x, hx, a, by rw [src _ x _ hx] at b; exact b⟩
      · rintro ⟨x, hx, a, b⟩; exact ⟨x, hx, a, by rw [src _ x _ hx]; exact b⟩
  · intro k m' n' hk a b
    refine (app_opened hf (by simp) n').2 ?_
    rcases key k m' hk with ⟨rfl, rfl⟩ | hk
    · cases a
    · exact h.lent k m' n' hk a b
  · intro k hk
    dsimp only at hk ⊢
    rw [fdUpd_ne _ _ (by omega)]
    exact h.fileBound k (by omega)
  · intro k m' hk
    rcases key k m' hk with ⟨rfl, rfl⟩ | hk
    · intro he; cases he
    · exact h.del k m' hk
  · intro i x hx
    dsimp only
    rw [src i x _ hx]; exact h.srcFile i x hx
  · intro i x m' n' hx hm hn
    dsimp only at hm
    rw [src i x _ hx] at hm; exact h.srcFd i x m' n' hx hm hn

/-- The budget plays no part. -/
theorem FdInv.budget {s : FdSys} (h : FdInv s) (b : Nat → Int) : FdInv { s with budget := b } :=
  { h with own := h.own.same rfl fun o' n' => by cases o' <;> simp only [FdSys.held] }

/-- A file is destroyed that no source refers to and that discovery has not opened. -/
theorem file_drop {s : FdSys} (h : FdInv s) {k : Nat} {m : FdMeta} (hk : s.files k = some m) (hs : ∀ i x, s.srcs i = some x → x.file ≠ k)
    (f : Nat → FdOwner) (hown : FdSys.Own { s with fds := f, files := fdUpd s.files k none }) (happ : ∀ n, f n = .app ↔ s.fds n = .app) :
    FdInv { s with fds := f, files := fdUpd s.files k none } := by
  have key : ∀ k' m', fdUpd s.files k none k' = some m' → k' ≠ k ∧ s.files k' = some m' := by
    intro k' m' hz
    by_cases hj : k' = k
    · subst hj; rw [fdUpd_same] at hz; cases hz
    · rw [fdUpd_ne _ _ hj] at hz; exact ⟨hj, hz⟩
  refine { h with own := hown, lent := ?_, fileBound := ?_, del := ?_, srcFile := ?_, srcFd := ?_ }
  · intro k' m' n' a b c
    exact (happ n').2 (h.lent k' m' n' (key k' m' a).2 b c)
  · intro k' hk'
    have : k' ≠ k := by
      rintro rfl
      have := h.fileBound k' hk'
      rw [hk] at this; cases this
    dsimp only
    rw [fdUpd_ne _ _ this]
    exact h.fileBound k' hk'
  · intro k' m' a; exact h.del k' m' (key k' m' a).2
  · intro i x hx
    dsimp only
    rw [fdUpd_ne _ _ (hs i x hx)]
    exact h.srcFile i x hx
  · intro i x m' n' a b; exact h.srcFd i x m' n' a (key _ _ b).2

theorem dropFile_ok {s : FdSys} (h : FdInv s) (q k : Nat) (hs : ∀ i x m, s.srcs i = some x → s.files x.file = some m → m.q ≠ q) :
    ∃ s', s.dropFile q k = .ok s' ∧ FdInv s' ∧ AppSame s s' ∧ s'.budget = s.budget ∧ s'.nfile = s.nfile ∧ s'.srcs = s.srcs ∧
      s'.dirs = s.dirs ∧
      (∀ k' m, s'.files k' = some m ↔ s.files k' = some m ∧ ¬(k' = k ∧ m.q = q)) := by
  unfold FdSys.dropFile
  cases hk : s.files k with
  | none =>
    refine ⟨s, rfl, h, AppSame.rfl, rfl, rfl, rfl, rfl, fun k' m => ⟨fun a => ⟨a, ?_⟩, And.left⟩⟩
    rintro ⟨rfl, -⟩; rw [hk] at a; cases a
  | some m =>
    dsimp only
    by_cases hq : m.q = q
    · rw [if_pos hq]
      have hs' : ∀ i x, s.srcs i = some x → x.file ≠ k := by
        rintro i x hx rfl
        exact hs i x m hx hk hq
      have hfiles : ∀ k' m', fdUpd s.files k none k' = some m' ↔ s.files k' = some m' ∧ ¬(k' = k ∧ m'.q = q) := by
        intro k' m'
        by_cases hkk : k' = k
        · subst hkk
          rw [fdUpd_same, hk]
          constructor
          · intro a; cases a
          · rintro ⟨a, b⟩; cases a; exact absurd ⟨rfl, hq⟩ b
        · rw [fdUpd_ne _ _ hkk]
          exact ⟨fun a => ⟨a, fun b => hkk b.1⟩, And.left⟩
      by_cases hn : m.needToClose = true ∧ m.fd ≠ none
      · obtain ⟨n, hn2⟩ := Option.ne_none_iff_exists'.1 hn.2
        have hf : s.fds n = .file k := (h.own n (.file k) (by simp) (by simp)).2 ⟨m, hk, hn.1, hn2⟩
        rw [if_pos hn.1, hn2]
        dsimp only [FdSys.kcloseOpt]
        rw [kclose_eq hf]
        refine ⟨_, rfl, file_drop h hk hs' _ ?_ (app_closed hf (by simp)), app_closed hf (by simp), rfl, rfl, rfl, rfl, hfiles⟩
        refine h.own.closed (n := n) hf rfl fun o' n' => ?_
        cases o' <;> simp only [FdSys.held, reduceCtorEq, false_and, not_false_eq_true, and_true]
        · rename_i k'
          by_cases hkk : k' = k
          · subst hkk; rw [fdUpd_same, hk]; simp [hn.1, hn2]
            exact fun a => a.symm
          · rw [fdUpd_ne _ _ hkk]; simp [hkk]
        · constructor
          · rintro ⟨x, hx, a, b⟩; exact ⟨x, hx, a, by rw [fdUpd_ne _ _ (hs' _ x hx)] at b; exact b⟩
          · rintro ⟨x, hx, a, b⟩; exact ⟨x, hx, a, by rw [fdUpd_ne _ _ (hs' _ x hx)]; exact b⟩
      · have hnone : (if m.needToClose = true then m.fd else none) = none := by
          by_cases h1 : m.needToClose = true
          · rw [if_pos h1]
            by_cases h2 : m.fd = none
            · exact h2
            · exact absurd ⟨h1, h2⟩ hn
          · rw [if_neg h1]
        rw [hnone]
        refine ⟨_, rfl, file_drop h hk hs' s.fds ?_ (fun _ => Iff.rfl), AppSame.rfl, rfl, rfl, rfl, rfl, hfiles⟩
        refine h.own.same rfl fun o' n' => ?_
        cases o' <;> simp only [FdSys.held]
        · rename_i k'
          by_cases hkk : k' = k
          · subst hkk; rw [fdUpd_same, hk]; simp
            intro a b
            exact hn ⟨a, by simp [b]⟩
          · rw [fdUpd_ne _ _ hkk]
        · constructor
          · rintro ⟨x, hx, a, b⟩; exact ⟨x, hx, a, by rw [fdUpd_ne _ _ (hs' _ x hx)] at b; exact b⟩
          · rintro ⟨x, hx, a, b⟩; exact ⟨x, hx, a, by rw [fdUpd_ne _ _ (hs' _ x hx)]; exact b⟩
    · rw [if_neg hq]
      refine ⟨s, rfl, h, AppSame.rfl, rfl, rfl, rfl, rfl, fun k' m' => ⟨fun a => ⟨a, ?_⟩, And.left⟩⟩
      rintro ⟨rfl, b⟩; rw [hk] at a; cases a; exact hq b

theorem dropFiles_ok (q : Nat) (l : List Nat) : ∀ (s : FdSys), FdInv s → (∀ i x m, s.srcs i = some x → s.files x.file = some m → m.q ≠ q) →
    ∃ s', FdSys.dropFiles q l s = .ok s' ∧ FdInv s' ∧ AppSame s s' ∧ s'.budget = s.budget ∧ s'.nfile = s.nfile ∧ s'.srcs = s.srcs ∧
      s'.dirs = s.dirs ∧
      (∀ k' m, s'.files k' = some m ↔ s.files k' = some m ∧ ¬(k' ∈ l ∧ m.q = q)) := by
  induction l with
  | nil => intro s h _; exact ⟨s, rfl, h, AppSame.rfl, rfl, rfl, rfl, rfl, by simp⟩
  | cons k l ih =>
    intro s h hs
    obtain ⟨s1, h1, h2, h3, h4, h5, h6, h7, h8⟩ := dropFile_ok h q k hs
    obtain ⟨s2, g1, g2, g3, g4, g5, g6, g7, g8⟩ := ih s1 h2 (by
      intro i x m hx hm
      rw [h6] at hx
      exact hs i x m hx ((h8 _ _).1 hm).1)
    unfold FdSys.dropFiles
    rw [h1]
    refine ⟨s2, g1, g2, h3.trans g3, g4.trans h4, g5.trans h5, g6.trans h6, g7.trans h7, fun k' m => ?_⟩
    rw [g8, h8, List.mem_cons]
    constructor
    · rintro ⟨⟨a, b⟩, c⟩
      exact ⟨a, fun ⟨d, e⟩ => d.elim (fun d => b ⟨d, e⟩) (fun d => c ⟨d, e⟩)⟩
    · rintro ⟨a, b⟩
      exact ⟨⟨a, fun ⟨d, e⟩ => b ⟨.inl d, e⟩⟩, fun ⟨d, e⟩ => b ⟨.inr d, e⟩⟩

/-- Every source of the queue is free of threads. -/
def FdSys.NoHeld (s : FdSys) (q : Nat) : Prop := ∀ i x m, s.srcs i = some x → s.files x.file = some m → m.q = q → x.held = false

theorem srcIn_iff {s : FdSys} {q i : Nat} : s.srcIn q i = true ↔ ∃ x m, s.srcs i = some x ∧ s.files x.file = some m ∧ m.q = q := by
  unfold FdSys.srcIn
  cases hx : s.srcs i with
  | none => simp
  | some x =>
    dsimp only
    cases hm : s.files x.file with
    | none => simp [hm]
    | some m => simp [hm]

theorem dropSrcs_ok (q : Nat) (adv : Bool) (l : List Nat) : ∀ (s : FdSys), FdInv s → s.NoHeld q →
    ∃ s', FdSys.dropSrcs q adv l s = .ok s' ∧ FdKeep s s' ∧ s'.dirs = s.dirs ∧
      (∀ i x, s'.srcs i = some x → s.srcs i = some x ∧ (i ∈ l → ∀ m, s.files x.file = some m → m.q ≠ q)) := by
  induction l with
  | nil => intro s h _; exact ⟨s, rfl, .rfl h, rfl, by simp⟩
  | cons i l ih =>
    intro s h hn
    have hstep : ∃ s1, (if s.srcIn q i then s.dropSrc i adv else .ok s) = .ok s1 ∧ FdKeep s s1 ∧ s1.dirs = s.dirs ∧
        (∀ j x, s1.srcs j = some x → s.srcs j = some x ∧ (j = i → ∀ m, s.files x.file = some m → m.q ≠ q)) := by
      by_cases hi : s.srcIn q i = true
      · rw [if_pos hi]
        obtain ⟨x, m, hx, hm, hq⟩ := srcIn_iff.1 hi
        obtain ⟨s1, h1, h2, h3⟩ := dropSrc_ok h i adv
        rcases h3 with ⟨-, h3⟩ | h3
        · rw [hx] at h3
          change x.held = true at h3
          rw [hn i x m hx hm hq] at h3; cases h3
        · subst h3
          refine ⟨_, h1, h2, rfl, ?_⟩
          intro j y hy
          dsimp only at hy
          by_cases hj : j = i
          · subst hj; rw [fdUpd_same] at hy; cases hy
          · rw [fdUpd_ne _ _ hj] at hy; exact ⟨hy, fun a => absurd a hj⟩
      · rw [if_neg hi]
        refine ⟨s, rfl, .rfl h, rfl, fun j x hx => ⟨hx, ?_⟩⟩
        rintro rfl m hm hq
        exact hi (srcIn_iff.2 ⟨x, m, hx, hm, hq⟩)
    obtain ⟨s1, h1, h2, h3, h4⟩ := hstep
    obtain ⟨s2, g1, g2, g3, g4⟩ := ih s1 h2.inv (by
      intro j x m hx hm hq
      rw [h2.files] at hm
      exact hn j x m (h4 j x hx).1 hm hq)
    unfold FdSys.dropSrcs
    rw [h1]
    refine ⟨s2, g1, h2.trans g2, g3.trans h3, ?_⟩
    intro j x hx
    obtain ⟨a, b⟩ := g4 j x hx
    obtain ⟨c, d⟩ := h4 j x a
    refine ⟨c, fun e => ?_⟩
    rcases List.mem_cons.1 e with e | e
    · exact d e
    · rw [h2.files] at b; exact b e

theorem joined_noHeld {s : FdSys} (h : FdInv s) {q : Nat} (hj : s.joined q = true) : s.NoHeld q := by
  intro i x m hx hm hq
  unfold FdSys.joined at hj
  rw [Bool.and_eq_true, List.all_eq_true] at hj
  have hi : i < s.nsrc := by
    by_cases hi : i < s.nsrc
    · exact hi
    · have := h.srcBound i (by omega)
      rw [hx] at this; cases this
  have := hj.2 i (List.mem_range.2 hi)
  rw [srcIn_iff.2 ⟨x, m, hx, hm, hq⟩, hx] at this
  simpa using this

theorem destroyQueue_ok {s : FdSys} (h : FdInv s) (q : Nat) (adv : Bool) : ∃ s', s.destroyQueue q adv = .ok s' ∧ FdInv s' ∧ AppSame s s' ∧
    s'.budget = s.budget ∧ s'.nfile = s.nfile ∧ (∀ k m, s'.files k = some m → s.files k = some m) ∧
    (s.joined q = true → (∀ k m, s'.files k = some m ↔ s.files k = some m ∧ m.q ≠ q) ∧ s'.dirs q = none) := by
  unfold FdSys.destroyQueue
  by_cases hj : s.joined q = true
  · rw [if_pos hj]
    obtain ⟨s1, h1, h2, h3, h4⟩ := dropSrcs_ok q adv (List.range s.nsrc) s h (joined_noHeld h hj)
    rw [h1]
    dsimp only
    obtain ⟨s2, g1, g2, g3, g4, g5, g6, g7, g8⟩ := dropFiles_ok q (List.range s1.nfile) s1 h2.inv (by
      intro i x m hx hm
      obtain ⟨a, b⟩ := h4 i x hx
      have hi : i < s.nsrc := by
        by_cases hi : i < s.nsrc
        · exact hi
        · have := h.srcBound i (by omega)
          rw [a] at this; cases this
      rw [h2.files] at hm
      exact b (List.mem_range.2 hi) m hm)
    have hfiles : ∀ k m, s2.files k = some m ↔ s.files k = some m ∧ m.q ≠ q := by
      intro k m
      rw [g8, h2.files]
      constructor
      · rintro ⟨a, b⟩
        refine ⟨a, fun hq => b ⟨?_, hq⟩⟩
        rw [List.mem_range, h2.nfile]
        by_cases hi : k < s.nfile
        · exact hi
        · have := h.fileBound k (by omega)
          rw [a] at this; cases this
      · rintro ⟨a, b⟩; exact ⟨a, fun c => b c.2⟩
    refine ⟨s2, g1, g2, h2.app.trans g3, g4.trans h2.budget, g5.trans h2.nfile, fun k m a => ((hfiles k m).1 a).1, fun _ => ⟨hfiles, ?_⟩⟩
    rw [g7, h3]
    unfold FdSys.joined at hj
    rw [Bool.and_eq_true] at hj
    exact Option.isNone_iff_eq_none.1 hj.1
  · rw [if_neg hj]
    exact ⟨s, rfl, h, AppSame.rfl, rfl, rfl, fun _ _ a => a, fun a => absurd a hj⟩

theorem addBlock_inv {s : FdSys} (h : FdInv s) {k : Nat} (hk : (s.files k).isSome = true) : FdInv (s.addBlock k) := by
  have hnone := h.srcBound s.nsrc (Nat.le_refl _)
  have key : ∀ j z, fdUpd s.srcs s.nsrc (some { file := k }) j = some z → (j = s.nsrc ∧ z = { file := k }) ∨ (j ≠ s.nsrc ∧ s.srcs j = some z) := by
    intro j z hz
    by_cases hj : j = s.nsrc
    · subst hj; rw [fdUpd_same] at hz; cases hz; exact .inl ⟨rfl, rfl⟩
    · rw [fdUpd_ne _ _ hj] at hz; exact .inr ⟨hj, hz⟩
  unfold FdSys.addBlock
  refine { h with own := ?_, srcBound := ?_, srcFile := ?_, srcFd := ?_, ctx := ?_, cache := ?_, idle := ?_, heldCur := ?_, curHeld := ?_ }
  · refine h.own.same rfl fun o' n' => ?_
    cases o' <;> simp only [FdSys.held]
    rename_i j
    by_cases hj : j = s.nsrc
    · subst hj; rw [fdUpd_same, hnone]; simp
    · rw [fdUpd_ne _ _ hj]
  · intro j hj
    dsimp only at hj ⊢
    rw [fdUpd_ne _ _ (by omega)]
    exact h.srcBound j (by omega)
  · intro j z hz
    rcases key j z hz with ⟨rfl, rfl⟩ | ⟨-, hz⟩
    · exact Option.isSome_iff_exists.1 hk
    · exact h.srcFile j z hz
  · intro j z m n hz hm hn
    rcases key j z hz with ⟨rfl, rfl⟩ | ⟨-, hz⟩
    · exact .inl rfl
    · exact h.srcFd j z m n hz hm hn
  · intro j z hz
    rcases key j z hz with ⟨rfl, rfl⟩ | ⟨-, hz⟩
    · intro a; exact absurd rfl a
    · exact h.ctx j z hz
  · intro j z hz
    rcases key j z hz with ⟨rfl, rfl⟩ | ⟨-, hz⟩
    · intro a; cases a
    · exact h.cache j z hz
  · intro j z hz
    rcases key j z hz with ⟨rfl, rfl⟩ | ⟨-, hz⟩
    · intro _; rfl
    · exact h.idle j z hz
  · intro j z hz
    rcases key j z hz with ⟨rfl, rfl⟩ | ⟨-, hz⟩
    · intro a; cases a
    · exact h.heldCur j z hz
  · intro t j hj
    obtain ⟨z, hz, hz2⟩ := h.curHeld t j hj
    refine ⟨z, ?_, hz2⟩
    have : j ≠ s.nsrc := by rintro rfl; rw [hnone] at hz; cases hz
    dsimp only
    rw [fdUpd_ne _ _ this]; exact hz

/-- The files that discovery has opened and that are still open, and what is left of the budget. -/
def FdSys.opened (s : FdSys) (q : Nat) : Nat :=
  (List.range s.nfile).countP fun k => (s.files k).elim false fun m => m.needToClose && (m.q == q)

theorem addFile_ok {s : FdSys} (h : FdInv s) (q : Nat) (lent r : Option Nat) (hl : ∀ n, lent = some n → s.fds n = .app) :
    FdInv (s.addFile q lent r) ∧ AppSame s (s.addFile q lent r) := by
  unfold FdSys.addFile
  split
  · rcases kopen_cases s (.file s.nfile) r with he | ⟨n, hf, he⟩
    · rw [he]
      exact ⟨FdInv.budget (file_add h _ rfl (by simp) (by simp)) _, AppSame.rfl⟩
    · rw [he]
      exact ⟨FdInv.budget (file_add_open h q hf) _, app_opened hf (by simp)⟩
  · exact ⟨file_add h _ rfl hl (by simp), AppSame.rfl⟩

/-- No more is opened than the budget allows. -/
def FdSys.Within (s s' : FdSys) : Prop :=
  ∀ q, 0 ≤ s.budget q → 0 ≤ s'.budget q ∧ (s'.opened q : Int) + s'.budget q ≤ (s.opened q : Int) + s.budget q

theorem within_fewer {s s' : FdSys} (hb : s'.budget = s.budget) (hn : s'.nfile = s.nfile) (hf : ∀ k m, s'.files k = some m → s.files k = some m) :
    s.Within s' := by
  intro q hq
  rw [hb]
  refine ⟨hq, ?_⟩
  have : s'.opened q ≤ s.opened q := by
    unfold FdSys.opened
    rw [hn]
    refine List.countP_mono_left fun k _ hk => ?_
    cases hm : s'.files k with
    | none => rw [hm] at hk; cases hk
    | some m => rw [hm] at hk; rw [hf k m hm]; exact hk
  omega

theorem FdKeep.within {s s' : FdSys} (h : FdKeep s s') : s.Within s' :=
  within_fewer h.budget h.nfile fun k m hk => by rw [h.files] at hk; exact hk

theorem opened_add {s : FdSys} (m : FdMeta) (q : Nat) (s' : FdSys) (hf : s'.files = fdUpd s.files s.nfile (some m)) (hn : s'.nfile = s.nfile + 1) :
    s'.opened q = s.opened q + (if m.needToClose && (m.q == q) then 1 else 0) := by
  unfold FdSys.opened
  rw [hn, hf, List.range_succ, List.countP_append]
  congr 1
  · refine List.countP_congr fun k hk => ?_
    rw [fdUpd_ne _ _ (by have := List.mem_range.1 hk; omega)]
  · rw [List.countP_singleton, fdUpd_same]; rfl

theorem addFile_within {s : FdSys} (q : Nat) (lent r : Option Nat) : s.Within (s.addFile q lent r) := by
  intro q' hq
  unfold FdSys.addFile
  split
  · rename_i hc
    rcases kopen_cases s (.file s.nfile) r with he | ⟨n, hf, he⟩
    · rw [he, opened_add (s := s) _ q' _ rfl rfl]
      dsimp only
      by_cases hqq : q' = q
      · subst hqq; rw [fdUpd_same]; simp; have := hc.1; omega
      · rw [fdUpd_ne _ _ hqq]; simp; exact hq
    · rw [he, opened_add (s := s) _ q' _ rfl rfl]
      dsimp only
      by_cases hqq : q' = q
      · subst hqq; rw [fdUpd_same]; simp; have := hc.1; omega
      · rw [fdUpd_ne _ _ hqq]
        have : (q == q') = false := by simpa using Ne.symm hqq
        simp [this]; exact hq
  · rw [opened_add (s := s) _ q' _ rfl rfl]
    simp; exact hq

theorem addDelete_within {s : FdSys} (q : Nat) : s.Within (s.addDelete q) := by
  intro q' hq
  unfold FdSys.addDelete
  rw [opened_add (s := s) _ q' _ rfl rfl]
  simp; exact hq

/-! ### Steps -/

theorem lent_iff {s : FdSys} (h : FdInv s) {n : Nat} : s.lent n = true ↔ ∃ k m, s.files k = some m ∧ m.needToClose = false ∧ m.fd = some n := by
  unfold FdSys.lent
  rw [List.any_eq_true]
  constructor
  · rintro ⟨k, -, hk⟩
    cases hm : s.files k with
    | none => rw [hm] at hk; cases hk
    | some m => rw [hm] at hk; exact ⟨k, m, hm, by simpa using hk⟩
  · rintro ⟨k, m, hm, a, b⟩
    refine ⟨k, List.mem_range.2 ?_, by rw [hm]; simp [a, b]⟩
    by_cases hi : k < s.nfile
    · exact hi
    · have := h.fileBound k (by omega)
      rw [hm] at this; cases this

/-- Steps of the application. -/
def FdEv.isApp : FdEv → Bool
  | .appOpen _ => true
  | .appClose _ => true
  | _ => false

theorem step_ok {s : FdSys} (h : FdInv s) (e : FdEv) : ∃ s', s.step e = .ok s' ∧ FdInv s' ∧ (e.isApp = false → AppSame s s') ∧ s.Within s' := by
  have lift : ∀ {r : Except FdBad FdSys}, (∃ s', r = .ok s' ∧ FdKeep s s') → ∃ s', r = .ok s' ∧ FdInv s' ∧ (e.isApp = false → AppSame s s') ∧ s.Within s' := by
    rintro r ⟨s', a, b⟩; exact ⟨s', a, b.inv, fun _ => b.app, b.within⟩
  have lift3 : ∀ {r : Except FdBad FdSys} {P : FdSys → Prop}, (∃ s', r = .ok s' ∧ FdKeep s s' ∧ P s') → ∃ s', r = .ok s' ∧ FdInv s' ∧ (e.isApp = false → AppSame s s') ∧ s.Within s' := by
    rintro r P ⟨s', a, b, -⟩; exact ⟨s', a, b.inv, fun _ => b.app, b.within⟩
  cases e with
  | appOpen r =>
    unfold FdSys.step
    dsimp only
    rcases kopen_cases s .app r with he | ⟨n, hf, he⟩
    · rw [he]; exact ⟨s, rfl, h, (fun a => by cases a), within_fewer rfl rfl (fun _ _ a => a)⟩
    · rw [he]
      refine ⟨_, rfl, { h with own := ?_, lent := ?_ }, (fun a => by cases a), within_fewer rfl rfl (fun _ _ a => a)⟩
      · intro m p hp hp2
        have := h.own m p hp hp2
        dsimp only
        have hh : FdSys.held { s with fds := fdUpd s.fds n .app } p m ↔ s.held p m := by cases p <;> simp only [FdSys.held]
        rw [hh, ← this]
        by_cases hm : m = n
        · subst hm; rw [fdUpd_same, hf]; exact ⟨fun a => absurd a.symm hp2, fun a => absurd a.symm hp⟩
        · rw [fdUpd_ne _ _ hm]
      · intro k m n' a b c
        dsimp only
        by_cases hn : n' = n
        · subst hn; exact fdUpd_same _ _ _
        · rw [fdUpd_ne _ _ hn]; exact h.lent k m n' a b c
  | appClose n =>
    unfold FdSys.step
    dsimp only
    split
    · rename_i hc
      rw [kclose_eq hc.1]
      refine ⟨_, rfl, { h with own := ?_, lent := ?_ }, (fun a => by cases a), within_fewer rfl rfl (fun _ _ a => a)⟩
      · intro m p hp hp2
        have := h.own m p hp hp2
        dsimp only
        have hh : FdSys.held { s with fds := fdUpd s.fds n .free } p m ↔ s.held p m := by cases p <;> simp only [FdSys.held]
        rw [hh, ← this]
        by_cases hm : m = n
        · subst hm; rw [fdUpd_same, hc.1]; exact ⟨fun a => absurd a.symm hp, fun a => absurd a.symm hp2⟩
        · rw [fdUpd_ne _ _ hm]
      · intro k m n' a b c
        dsimp only
        by_cases hn : n' = n
        · subst hn
          have := (lent_iff h).2 ⟨k, m, a, b, c⟩
          rw [hc.2] at this; cases this
        · rw [fdUpd_ne _ _ hn]; exact h.lent k m n' a b c
    · exact ⟨s, rfl, h, (fun a => by cases a), within_fewer rfl rfl (fun _ _ a => a)⟩
  | dirOpen q r =>
    unfold FdSys.step
    dsimp only
    by_cases hq : s.dirs q = none
    · rw [if_pos hq]; exact lift ⟨_, rfl, dirOpen_ok h hq r⟩
    · rw [if_neg hq]; exact lift ⟨s, rfl, .rfl h⟩
  | dirClose q =>
    unfold FdSys.step
    dsimp only
    cases hq : s.dirs q with
    | none => exact lift ⟨s, rfl, .rfl h⟩
    | some n =>
      obtain ⟨a, b⟩ := dirClose_ok h hq
      dsimp only
      rw [kclose_eq a]
      exact lift ⟨_, rfl, b⟩
  | addFile q lent r =>
    unfold FdSys.step
    dsimp only
    cases lent with
    | none => exact ⟨_, rfl, (addFile_ok h q none r (by simp)).1, fun _ => (addFile_ok h q none r (by simp)).2, addFile_within q none r⟩
    | some n =>
      dsimp only
      split
      · rename_i hn
        have := addFile_ok h q (some n) r (fun n' hn' => by cases hn'; exact hn)
        exact ⟨_, rfl, this.1, fun _ => this.2, addFile_within q (some n) r⟩
      · exact ⟨s, rfl, h, fun _ => AppSame.rfl, within_fewer rfl rfl (fun _ _ a => a)⟩
  | addDelete q => exact ⟨_, rfl, file_add h _ rfl (by simp) (by simp), fun _ => AppSame.rfl, addDelete_within q⟩
  | addBlock k =>
    unfold FdSys.step
    dsimp only
    split
    · rename_i hk; exact ⟨_, rfl, addBlock_inv h hk, fun _ => AppSame.rfl, within_fewer rfl rfl (fun _ _ a => a)⟩
    · exact ⟨s, rfl, h, fun _ => AppSame.rfl, within_fewer rfl rfl (fun _ _ a => a)⟩
  | take t i adv r => exact lift (take_ok h t i adv r)
  | read t adv ok => exact lift (readSrc_ok h t adv ok)
  | put t adv => exact lift (putSrc_ok h t adv)
  | dropSrc i adv => exact lift3 (dropSrc_ok h i adv)
  | destroyQueue q adv =>
    obtain ⟨s', h1, h2, h3, h4, h5, h6, -⟩ := destroyQueue_ok h q adv
    exact ⟨s', h1, h2, fun _ => h3, within_fewer h4 h5 h6⟩
  | wOpen t o => exact lift (writerOpen_ok h t o)
  | wUse t ok => exact lift (writerUse_ok h t ok)
  | wEnd t => exact lift3 (writerEnd_ok h t)
  | wDrop t => exact lift3 (writerDrop_ok h t)
  | cNew t => exact lift (clientNew_ok h t)
  | cCall t => exact lift (clientCall_ok h t)
  | cTry t r a => exact lift (clientTry_ok h t r a)
  | cUse t => exact lift (clientUse_ok h t)
  | cDrop t => exact lift3 (clientDrop_ok h t)
  | sNew t => exact lift (serverNew_ok h t)
  | sListen t => exact lift ⟨_, rfl, serverListen_ok h t⟩
  | sTry t r ok => exact lift (serverTry_ok h t r ok)
  | sListened t => exact lift ⟨_, rfl, serverListened_ok h t⟩
  | sEnter t => exact lift (serverEnter_ok h t)
  | sAccept t r => exact lift ⟨_, rfl, serverAccept_ok h t r⟩
  | sUse t => exact lift (serverUse_ok h t)
  | sClose t => exact lift3 (serverClose_ok h t)
  | sFinish t j => exact lift (serverFinish_ok h t j)
  | sDrop t => exact lift3 (serverDrop_ok h t)
  | lOpen i r1 r2 r3 found lock => 
    unfold FdSys.step
    dsimp only
    by_cases hi : s.logs i = none
    · rw [if_pos hi]; exact lift (logOpen_ok h hi r1 r2 r3 found lock)
    · rw [if_neg hi]; exact lift ⟨s, rfl, .rfl h⟩
  | lUse i => exact lift (logUse_ok h i)
  | lClose i => exact lift3 (logClose_ok h i)

theorem init_inv (app : Nat → Bool) (budget : Nat → Int) : FdInv (FdSys.init app budget) := by
  have hne : ∀ n (o : FdOwner), o ≠ .free → o ≠ .app → ¬((if app n then FdOwner.app else .free) = o) := by
    intro n o h1 h2 h3
    split at h3
    · exact h2 h3.symm
    · exact h1 h3.symm
  constructor
  case own =>
    intro n o h1 h2
    refine ⟨fun h3 => absurd h3 (hne n o h1 h2), fun h3 => ?_⟩
    cases o <;> simp [FdSys.held, FdSys.init] at h3
  all_goals simp [FdSys.init]

theorem run_ok (l : List FdEv) : ∀ {s : FdSys}, FdInv s → ∃ s', s.run l = .ok s' ∧ FdInv s' ∧ s.Within s' := by
  induction l with
  | nil => intro s h; exact ⟨s, rfl, h, within_fewer rfl rfl (fun _ _ a => a)⟩
  | cons e l ih =>
    intro s h
    obtain ⟨s1, h1, h2, -, h3⟩ := step_ok h e
    obtain ⟨s2, g1, g2, g3⟩ := ih h2
    refine ⟨s2, by unfold FdSys.run; rw [h1]; exact g1, g2, fun q hq => ?_⟩
    have a := h3 q hq
    have b := g3 q a.1
    exact ⟨b.1, by omega⟩

end Wdt
