import Verif.Model.QueueWait
/-
Lemmas about `QueueWait`: sums over threads, and the invariant.
-/
namespace Wdt

/-- Sum of a weight over the threads. -/
def tsum {α : Type} (n : Nat) (f : α → Nat) (th : Nat → α) : Nat := ((List.range n).map fun u => f (th u)).sum

theorem tsum_succ {α : Type} (n : Nat) (f : α → Nat) (th : Nat → α) : tsum (n + 1) f th = tsum n f th + f (th n) := by
  simp [tsum, List.range_succ]

theorem tsum_congr {α : Type} {n : Nat} {f g : α → Nat} {th th' : Nat → α} (h : ∀ u < n, f (th u) = g (th' u)) :
    tsum n f th = tsum n g th' := by
  induction n with
  | zero => rfl
  | succ n ih => rw [tsum_succ, tsum_succ, ih fun u hu => h u (by omega), h n (by omega)]

theorem tsum_le {α : Type} {n : Nat} {f g : α → Nat} {th th' : Nat → α} (h : ∀ u < n, f (th u) ≤ g (th' u)) :
    tsum n f th ≤ tsum n g th' := by
  induction n with
  | zero => exact Nat.le_refl _
  | succ n ih => rw [tsum_succ, tsum_succ]; have := ih fun u hu => h u (by omega); have := h n (by omega); omega

theorem tsum_upd {α : Type} {n t : Nat} (f : α → Nat) (th : Nat → α) (a : α) (ht : t < n) :
    tsum n f (upd th t a) + f (th t) = tsum n f th + f a := by
  induction n with
  | zero => omega
  | succ n ih =>
    rw [tsum_succ, tsum_succ]
    by_cases h : t = n
    · subst h
      have : tsum t f (upd th t a) = tsum t f th := tsum_congr fun u hu => by simp [upd, show u ≠ t by omega]
      rw [this]; simp [upd]; omega
    · have := ih (by omega)
      have e : upd th t a n = th n := by simp [upd, show n ≠ t by omega]
      rw [e]; omega

theorem tsum_pos {α : Type} {n : Nat} {f : α → Nat} {th : Nat → α} : 0 < tsum n f th ↔ ∃ u < n, 0 < f (th u) := by
  induction n with
  | zero => simp [tsum]
  | succ n ih =>
    rw [tsum_succ]
    constructor
    · intro h
      by_cases h1 : 0 < f (th n)
      · exact ⟨n, by omega, h1⟩
      · obtain ⟨u, hu, hu2⟩ := ih.1 (by omega)
        exact ⟨u, by omega, hu2⟩
    · rintro ⟨u, hu, hu2⟩
      by_cases h1 : u = n
      · subst h1; omega
      · have := ih.2 ⟨u, by omega, hu2⟩
        omega

/-- Where a sum of larger weights is not larger, the weights are equal. -/
theorem tsum_eq {α : Type} {n : Nat} {f g : α → Nat} {th : Nat → α} (h : ∀ p, f p ≤ g p) (hs : tsum n g th ≤ tsum n f th) :
    ∀ u < n, f (th u) = g (th u) := by
  induction n with
  | zero => intro u hu; omega
  | succ n ih =>
    rw [tsum_succ, tsum_succ] at hs
    have h1 : tsum n f th ≤ tsum n g th := tsum_le fun u _ => h _
    have h2 := h (th n)
    intro u hu
    by_cases e : u = n
    · subst e; omega
    · exact ih (by omega) u (by omega)

/-- Sleeping threads. -/
def wA : QPh → Nat
  | .asleep => 1
  | _ => 0

/-- Wake-ups given or still to be given. -/
def wW : QPh → Nat
  | .woken => 1
  | .notifying k => k
  | _ => 0

/-- Threads that wait in `getNextSource`. -/
def wV : QPh → Nat
  | .asleep => 1
  | .woken => 1
  | _ => 0

/-- Running threads. -/
def wR : QPh → Nat
  | .ended => 0
  | _ => 1

theorem running_eq (s : QW) (n : Nat) : s.running n = tsum n wR s.th := by
  unfold QW.running
  induction n with
  | zero => rfl
  | succ n ih =>
    rw [List.range_succ, List.countP_append, ih, tsum_succ]
    congr 1
    cases h : s.th n <;> simp [h, wR]

/-- The invariant. -/
structure QWInv (c : WCfg) (s : QW) : Prop where
  woken : 0 < tsum c.n wA s.th → s.queue ≤ tsum c.n wW s.th
  last : s.init = true → 0 < tsum c.n wA s.th → 0 < s.queue
  count : s.waiters = tsum c.n wV s.th
  ready : s.init = true ↔ s.dir = .done
  check : ∀ a, s.dir = .check a → tsum c.n wR s.th ≤ a
  batch : s.dir = .generate → s.queue = 0 ∧ ∀ u < c.n, s.th u = .asleep ∨ s.th u = .woken ∨ s.th u = .ended

theorem wakeAll_th (s : QW) (u : Nat) : s.wakeAll.th u = if s.th u = .asleep then .woken else s.th u := rfl

theorem wakeAll_A (s : QW) (n : Nat) : tsum n wA s.wakeAll.th = 0 := by
  have : ¬ 0 < tsum n wA s.wakeAll.th := by
    rw [tsum_pos]
    rintro ⟨u, -, hu⟩
    rw [wakeAll_th] at hu
    split at hu
    · simp [wA] at hu
    · cases h : s.th u <;> simp_all [wA]
  omega

theorem wakeAll_V (s : QW) (n : Nat) : tsum n wV s.wakeAll.th = tsum n wV s.th :=
  tsum_congr fun u _ => by rw [wakeAll_th]; split <;> simp_all [wV]

theorem wakeAll_R (s : QW) (n : Nat) : tsum n wR s.wakeAll.th = tsum n wR s.th :=
  tsum_congr fun u _ => by rw [wakeAll_th]; split <;> simp_all [wR]

/-- Phases that `notify` leaves alone. -/
def QPh.outer : QPh → Bool
  | .asleep => false
  | .woken => false
  | _ => true

/-- What wake-ups do to the threads. -/
structure Wakes (n : Nat) (th th' : Nat → QPh) : Prop where
  v : tsum n wV th' = tsum n wV th
  r : tsum n wR th' = tsum n wR th
  each : ∀ u, th' u = th u ∨ (th u = .asleep ∧ th' u = .woken)

theorem Wakes.refl (n : Nat) (th : Nat → QPh) : Wakes n th th := ⟨rfl, rfl, fun _ => .inl rfl⟩

theorem Wakes.trans {n : Nat} {a b d : Nat → QPh} (h : Wakes n a b) (h' : Wakes n b d) : Wakes n a d := by
  refine ⟨h'.v.trans h.v, h'.r.trans h.r, fun u => ?_⟩
  rcases h.each u with e | ⟨e1, e2⟩ <;> rcases h'.each u with e' | ⟨e1', e2'⟩
  · exact .inl (e'.trans e)
  · exact .inr ⟨e ▸ e1', e2'⟩
  · exact .inr ⟨e1, e'.trans e2⟩
  · rw [e2] at e1'; cases e1'

theorem Wakes.all (n : Nat) (s : QW) : Wakes n s.th s.wakeAll.th := by
  refine ⟨wakeAll_V s n, wakeAll_R s n, fun u => ?_⟩
  rw [wakeAll_th]
  split
  · rename_i h; exact .inr ⟨h, rfl⟩
  · exact .inl rfl

/-- `notify_one`. -/
theorem wakeOne_spec {s s' : QW} {n : Nat} {w : Option Nat} (h : s.wakeOne n w = some s') :
    s' = { s with th := s'.th } ∧ Wakes n s.th s'.th ∧ tsum n wA s'.th ≤ tsum n wA s.th ∧
      (0 < tsum n wA s'.th → tsum n wW s'.th = tsum n wW s.th + 1) := by
  unfold QW.wakeOne at h
  split at h
  · split at h
    · rename_i w hw
      cases h
      have e1 := tsum_upd wA s.th .woken hw.1
      have e2 := tsum_upd wW s.th .woken hw.1
      have e3 := tsum_upd wV s.th .woken hw.1
      have e4 := tsum_upd wR s.th .woken hw.1
      rw [hw.2] at e1 e2 e3 e4
      simp only [wA, wW, wV, wR] at e1 e2 e3 e4
      refine ⟨rfl, ⟨by simp only; omega, by simp only; omega, fun u => ?_⟩, by simp only; omega, fun _ => by simp only; omega⟩
      simp only [upd]
      split
      · rename_i hu; subst hu; exact .inr ⟨hw.2, rfl⟩
      · exact .inl rfl
    · cases h
  · split at h
    · rename_i hn
      cases h
      refine ⟨rfl, Wakes.refl _ _, Nat.le_refl _, fun hp => ?_⟩
      obtain ⟨u, hu, hu2⟩ := tsum_pos.1 hp
      have := hn u hu
      cases e : s.th u <;> simp_all [wA]
    · cases h

theorem wakeMany_spec {n : Nat} : ∀ {k : Nat} {ws : List (Option Nat)} {s s' : QW}, s.wakeMany n k ws = some s' →
    s' = { s with th := s'.th } ∧ Wakes n s.th s'.th ∧ tsum n wA s'.th ≤ tsum n wA s.th ∧
      (0 < tsum n wA s'.th → tsum n wW s'.th = tsum n wW s.th + k) := by
  intro k
  induction k with
  | zero =>
    intro ws s s' h
    cases ws with
    | nil => cases h; exact ⟨rfl, Wakes.refl _ _, Nat.le_refl _, fun _ => rfl⟩
    | cons w ws => cases h
  | succ k ih =>
    intro ws s s' h
    cases ws with
    | nil => cases h
    | cons w ws =>
      simp only [QW.wakeMany] at h
      split at h
      · rename_i s1 h1
        obtain ⟨a1, a2, a3, a4⟩ := wakeOne_spec h1
        obtain ⟨b1, b2, b3, b4⟩ := ih h
        refine ⟨?_, a2.trans b2, by omega, fun hp => ?_⟩
        · rw [b1, a1]
        · rw [b4 hp, a4 (by omega)]; omega
      · cases h

theorem smartNotify_spec {n k : Nat} {ws : List (Option Nat)} {s s' : QW} (h : s.smartNotify n k ws = some s') :
    s' = { s with th := s'.th } ∧ Wakes n s.th s'.th ∧ tsum n wA s'.th ≤ tsum n wA s.th ∧
      (0 < tsum n wA s'.th → tsum n wW s'.th = tsum n wW s.th + k) := by
  unfold QW.smartNotify at h
  split at h
  · cases h
    refine ⟨rfl, Wakes.all _ _, by rw [wakeAll_A]; omega, fun hp => ?_⟩
    rw [wakeAll_A] at hp; omega
  · exact wakeMany_spec h

/-- The threads that are outside or at the end stay where they are. -/
theorem Wakes.quiet {n : Nat} {th th' : Nat → QPh} (h : Wakes n th th')
    (hq : ∀ u < n, th u = .asleep ∨ th u = .woken ∨ th u = .ended) :
    ∀ u < n, th' u = .asleep ∨ th' u = .woken ∨ th' u = .ended := by
  intro u hu
  rcases h.each u with e | ⟨-, e⟩
  · rw [e]; exact hq u hu
  · exact .inr (.inl e)

theorem QWInv.init (c : WCfg) : QWInv c {} := by
  have h0 : ∀ f : QPh → Nat, f .fresh = 0 → tsum c.n f (fun _ => .fresh) = 0 := by
    intro f hf
    have : ¬ 0 < tsum c.n f (fun _ => .fresh) := by rw [tsum_pos]; rintro ⟨u, -, hu⟩; omega
    omega
  refine ⟨fun h => ?_, fun h => ?_, ?_, ?_, fun a h => ?_, fun h => ?_⟩
  · rw [h0 wA rfl] at h; omega
  · cases h
  · show (0 : Int) = _; rw [h0 wV rfl]; rfl
  · constructor <;> intro h <;> cases h
  · cases h
  · cases h

/-- `getNextSource` behind the mutex. -/
theorem QWInv.look {c : WCfg} {s : QW} {t : Nat} (ht : t < c.n)
    (h1 : 0 < tsum c.n wA s.th → s.queue ≤ tsum c.n wW s.th) (h2 : s.init = true → 0 < tsum c.n wA s.th → 0 < s.queue)
    (h3 : s.waiters + wV (s.th t) = tsum c.n wV s.th + 1) (h4 : s.init = true ↔ s.dir = .done)
    (h5 : ∀ a, s.dir = .check a → tsum c.n wR s.th ≤ a)
    (h6 : s.dir = .generate → s.queue = 0 ∧ ∀ u < c.n, s.th u = .asleep ∨ s.th u = .woken ∨ s.th u = .ended)
    (hp : s.th t = .working ∨ s.th t = .again ∨ s.th t = .woken) : QWInv c (s.look t) := by
  have hA : wA (s.th t) = 0 := by rcases hp with e | e | e <;> rw [e] <;> rfl
  have hR : wR (s.th t) = 1 := by rcases hp with e | e | e <;> rw [e] <;> rfl
  have hW : wW (s.th t) ≤ 1 := by rcases hp with e | e | e <;> rw [e] <;> simp [wW]
  unfold QW.look
  split
  · rename_i hq
    have e1 := tsum_upd wA s.th .asleep ht
    have e3 := tsum_upd wV s.th .asleep ht
    have e4 := tsum_upd wR s.th .asleep ht
    rw [show wA .asleep = 1 from rfl] at e1; rw [show wV .asleep = 1 from rfl] at e3; rw [show wR .asleep = 1 from rfl] at e4
    refine ⟨fun _ => by simp only; omega, fun hi => absurd hi (by simp [hq.2]), by simp only; omega, h4,
      fun a ha => by have := h5 a ha; simp only; omega, fun hg => ⟨hq.1, fun u hu => ?_⟩⟩
    simp only [upd]
    split
    · exact .inl rfl
    · exact (h6 hg).2 u hu
  · rename_i hq
    split
    · rename_i hq0
      have hi : s.init = true := by
        cases e : s.init with
        | true => rfl
        | false => exact absurd ⟨hq0, e⟩ hq
      have hd := h4.1 hi
      have e1 := tsum_upd wA s.th .working ht
      have e3 := tsum_upd wV s.th .working ht
      rw [show wA .working = 0 from rfl] at e1; rw [show wV .working = 0 from rfl] at e3
      refine ⟨fun _ => by simp only; omega, fun _ hp => ?_, by simp only; omega, h4, fun a ha => ?_, fun hg => ?_⟩
      · have := h2 hi (by simp only at hp; omega)
        omega
      · simp only [hd] at ha; cases ha
      · simp only [hd] at hg; cases hg
    · rename_i hq0
      have e1 := tsum_upd wA s.th .opening ht
      have e2 := tsum_upd wW s.th .opening ht
      have e3 := tsum_upd wV s.th .opening ht
      have e4 := tsum_upd wR s.th .opening ht
      rw [show wA .opening = 0 from rfl] at e1; rw [show wW .opening = 0 from rfl] at e2
      rw [show wV .opening = 0 from rfl] at e3; rw [show wR .opening = 1 from rfl] at e4
      simp only
      have hnog : s.dir ≠ .generate := fun hg => hq0 (h6 hg).1
      split
      · rename_i hz
        have hd := h4.1 hz.2
        refine ⟨fun hp => ?_, fun _ hp => ?_, ?_, h4, fun a ha => ?_, fun hg => absurd hg hnog⟩
        · rw [wakeAll_A] at hp; omega
        · rw [wakeAll_A] at hp; omega
        · rw [wakeAll_V]; simp only [QW.wakeAll]; omega
        · rw [wakeAll_R]; have := h5 a ha; simp only; omega
      · rename_i hz
        refine ⟨fun hp => ?_, fun hi hp => ?_, ?_, h4, fun a ha => ?_, fun hg => absurd hg hnog⟩
        · simp only at hp ⊢
          have := h1 (by omega)
          omega
        · simp only at hz ⊢
          have : ¬ s.queue - 1 = 0 := fun e => hz ⟨e, hi⟩
          omega
        · simp only; omega
        · have := h5 a ha; simp only; omega

/-- A step that changes one thread, which neither sleeps nor is woken, and nothing else. -/
theorem QWInv.setOut {c : WCfg} {s : QW} {t : Nat} {p : QPh} (h : QWInv c s) (ht : t < c.n) (h0 : (s.th t).outer = true)
    (h0e : s.th t ≠ .ended) (hp : p.outer = true) (hw : wW (s.th t) ≤ wW p) :
    QWInv c { s with th := upd s.th t p } := by
  have e1 := tsum_upd wA s.th p ht
  have e2 := tsum_upd wW s.th p ht
  have e3 := tsum_upd wV s.th p ht
  have e4 := tsum_upd wR s.th p ht
  have a1 : wA (s.th t) = 0 := by cases e : s.th t <;> simp_all [QPh.outer, wA]
  have a3 : wV (s.th t) = 0 := by cases e : s.th t <;> simp_all [QPh.outer, wV]
  have a4 : wR (s.th t) = 1 := by cases e : s.th t <;> simp_all [wR]
  have b1 : wA p = 0 := by cases p <;> simp_all [QPh.outer, wA]
  have b3 : wV p = 0 := by cases p <;> simp_all [QPh.outer, wV]
  have b4 : wR p ≤ 1 := by cases p <;> simp [wR]
  refine ⟨fun hp => ?_, fun hi hp => ?_, ?_, h.ready, fun a ha => ?_, fun hg => ?_⟩
  · have := h.woken (by simp only at hp; omega); simp only; omega
  · exact h.last hi (by simp only at hp; omega)
  · have := h.count; simp only; omega
  · have := h.check a ha; simp only; omega
  · exfalso
    rcases (h.batch hg).2 t ht with e | e | e <;> rw [e] at h0 h0e
    · cases h0
    · cases h0
    · exact h0e rfl

theorem QWInv.step {c : WCfg} {s s' : QW} {e : QWEvent} (h : QWInv c s) (hs : qwStep c s e = some s') : QWInv c s' := by
  cases e with
  | start t =>
    simp only [qwStep] at hs
    split at hs <;> cases hs
    rename_i hc
    exact h.setOut hc.1 (by rw [hc.2.1]; rfl) (by rw [hc.2.1]; decide) rfl (by rw [hc.2.1]; exact Nat.le_refl _)
  | call t =>
    simp only [qwStep] at hs
    split at hs <;> cases hs
    rename_i hc
    refine QWInv.look hc.1 h.woken h.last ?_ h.ready h.check h.batch ?_
    · have := h.count
      have : wV (s.th t) = 0 := by rcases hc.2 with e | e <;> rw [e] <;> rfl
      simp only; omega
    · rcases hc.2 with e | e
      · exact .inl e
      · exact .inr (.inl e)
  | spurious t =>
    simp only [qwStep] at hs
    split at hs <;> cases hs
    rename_i hc
    have e1 := tsum_upd wA s.th .woken hc.1
    have e2 := tsum_upd wW s.th .woken hc.1
    have e3 := tsum_upd wV s.th .woken hc.1
    have e4 := tsum_upd wR s.th .woken hc.1
    rw [hc.2] at e1 e2 e3 e4
    simp only [wA, wW, wV, wR] at e1 e2 e3 e4
    refine ⟨fun hp => ?_, fun hi hp => ?_, ?_, h.ready, fun a ha => ?_, fun hg => ⟨(h.batch hg).1, fun u hu => ?_⟩⟩
    · have := h.woken (by omega); simp only; omega
    · exact h.last hi (by omega)
    · have := h.count; simp only; omega
    · have := h.check a ha; simp only; omega
    · simp only [upd]
      split
      · exact .inr (.inl rfl)
      · exact (h.batch hg).2 u hu
  | resume t =>
    simp only [qwStep] at hs
    split at hs <;> cases hs
    rename_i hc
    refine QWInv.look hc.1 h.woken h.last ?_ h.ready h.check h.batch (.inr (.inr hc.2))
    rw [hc.2, h.count]; rfl
  | opened t ok =>
    simp only [qwStep] at hs
    split at hs <;> cases hs
    rename_i hc
    refine h.setOut hc.1 (by rw [hc.2]; rfl) (by rw [hc.2]; decide) ?_ (by rw [hc.2]; exact Nat.zero_le _)
    cases ok <;> rfl
  | giveBack t k =>
    simp only [qwStep] at hs
    split at hs <;> cases hs
    rename_i hc
    have e1 := tsum_upd wA s.th (.notifying k) hc.1
    have e2 := tsum_upd wW s.th (.notifying k) hc.1
    have e3 := tsum_upd wV s.th (.notifying k) hc.1
    have e4 := tsum_upd wR s.th (.notifying k) hc.1
    rw [hc.2] at e1 e2 e3 e4
    simp only [wA, wW, wV, wR] at e1 e2 e3 e4
    refine ⟨fun hp => ?_, fun hi hp => ?_, ?_, h.ready, fun a ha => ?_, fun hg => ?_⟩
    · have := h.woken (by simp only at hp; omega); simp only; omega
    · have := h.last hi (by simp only at hp; omega); simp only; omega
    · have := h.count; simp only; omega
    · have := h.check a ha; simp only; omega
    · exfalso
      rcases (h.batch hg).2 t hc.1 with e | e | e <;> rw [e] at hc <;> cases hc.2
  | notify t w =>
    have hnog : (∃ k, s.th t = .notifying k) → t < c.n → s.dir ≠ .generate := by
      rintro ⟨k, hk⟩ ht hg
      rcases (h.batch hg).2 t ht with e | e | e <;> rw [e] at hk <;> cases hk
    simp only [qwStep] at hs
    split at hs
    · rename_i hk
      split at hs <;> cases hs
      rename_i hc
      exact h.setOut hc.1 (by rw [hk]; rfl) (by rw [hk]; decide) rfl (by rw [hk]; exact Nat.le_refl _)
    · rename_i k hk
      split at hs
      · rename_i ht
        split at hs
        · cases hs
          have hk' : s.wakeAll.th t = .notifying (k + 1) := by rw [wakeAll_th, hk]; rfl
          have e1 := tsum_upd wA s.wakeAll.th .working ht
          have e3 := tsum_upd wV s.wakeAll.th .working ht
          have e4 := tsum_upd wR s.wakeAll.th .working ht
          rw [hk', wakeAll_A] at e1
          rw [hk', wakeAll_V] at e3
          rw [hk', wakeAll_R] at e4
          simp only [wA, wV, wR] at e1 e3 e4
          refine ⟨fun hp => ?_, fun hi hp => ?_, ?_, h.ready, fun a ha => ?_, fun hg => absurd hg (hnog ⟨_, hk⟩ ht)⟩
          · simp only at hp; omega
          · simp only at hp; omega
          · have := h.count; simp only [QW.wakeAll] at e3 ⊢; omega
          · have := h.check a ha; simp only; omega
        · split at hs
          · rename_i s1 h1
            cases hs
            obtain ⟨a1, a2, a3, a4⟩ := wakeOne_spec h1
            have hk1 : s1.th t = .notifying (k + 1) := by
              rcases a2.each t with e | ⟨e, -⟩
              · rw [e, hk]
              · rw [hk] at e; cases e
            have e1 := tsum_upd wA s1.th (.notifying k) ht
            have e2 := tsum_upd wW s1.th (.notifying k) ht
            have e3 := tsum_upd wV s1.th (.notifying k) ht
            have e4 := tsum_upd wR s1.th (.notifying k) ht
            rw [hk1] at e1 e2 e3 e4
            simp only [wA, wW, wV, wR] at e1 e2 e3 e4
            have q1 : s1.queue = s.queue := by rw [a1]
            have q2 : s1.init = s.init := by rw [a1]
            have q3 : s1.waiters = s.waiters := by rw [a1]
            have q4 : s1.dir = s.dir := by rw [a1]
            have := a2.v
            have := a2.r
            refine ⟨fun hp => ?_, fun hi hp => ?_, ?_, ?_, fun a ha => ?_, fun hg => ?_⟩
            · simp only at hp ⊢
              have := h.woken (by omega)
              have := a4 (by omega)
              omega
            · simp only at hi hp ⊢
              have := h.last (q2 ▸ hi) (by omega)
              omega
            · have := h.count; simp only; omega
            · simp only; rw [q2, q4]; exact h.ready
            · have := h.check a (q4 ▸ ha); simp only; omega
            · exact absurd (q4 ▸ hg) (hnog ⟨_, hk⟩ ht)
          · cases hs
      · cases hs
    · cases hs
  | enterBarrier t =>
    simp only [qwStep] at hs
    split at hs <;> cases hs
    rename_i hc
    exact h.setOut hc.1 (by rw [hc.2]; rfl) (by rw [hc.2]; decide) rfl (by rw [hc.2]; exact Nat.le_refl _)
  | leaveBarrier =>
    simp only [qwStep] at hs
    split at hs <;> cases hs
    have cg : ∀ f : QPh → Nat, f .barrier = f .working →
        tsum c.n f (fun u => if s.th u = .barrier then .working else s.th u) = tsum c.n f s.th := by
      intro f hf
      refine tsum_congr fun u _ => ?_
      split
      · rename_i e; rw [e, hf]
      · rfl
    refine ⟨?_, ?_, ?_, h.ready, ?_, fun hg => ⟨(h.batch hg).1, fun u hu => ?_⟩⟩
    · simp only; rw [cg wA rfl, cg wW rfl]; exact h.woken
    · simp only; rw [cg wA rfl]; exact h.last
    · simp only; rw [cg wV rfl]; exact h.count
    · simp only; rw [cg wR rfl]; exact h.check
    · have := (h.batch hg).2 u hu
      simp only
      split
      · rename_i e; rw [e] at this; simp at this
      · exact this
  | exit t =>
    simp only [qwStep] at hs
    split at hs <;> cases hs
    rename_i hc
    exact h.setOut hc.1 (by rw [hc.2]; rfl) (by rw [hc.2]; decide) rfl (by rw [hc.2]; exact Nat.le_refl _)
  | add k ws =>
    simp only [qwStep] at hs
    split at hs
    · rename_i hc
      obtain ⟨a1, a2, a3, a4⟩ := smartNotify_spec hs
      simp only at a1 a2 a3 a4
      have := a2.v
      have := a2.r
      rw [a1]
      refine ⟨fun hp => ?_, fun hi hp => ?_, ?_, h.ready, fun a ha => ?_, fun hg => ?_⟩
      · simp only at hp ⊢
        have := h.woken (by omega); have := a4 hp; omega
      · simp only at hi hp ⊢
        have := h.last hi (by omega); omega
      · have := h.count; simp only; omega
      · have := h.check a ha; simp only; omega
      · simp only [hc] at hg; cases hg
    · cases hs
  | rebuild t k ws =>
    simp only [qwStep] at hs
    split at hs
    · rename_i hc
      obtain ⟨a1, a2, a3, a4⟩ := smartNotify_spec hs
      simp only at a1 a2 a3 a4
      have := a2.v
      have := a2.r
      have hA : tsum c.n wA s.th = 0 := by
        have : ¬ 0 < tsum c.n wA s.th := by
          rw [tsum_pos]
          rintro ⟨u, hu, hu2⟩
          rcases hc.2.2 u hu with e | e | e | e <;> rw [e] at hu2 <;> simp [wA] at hu2
        omega
      rw [a1]
      refine ⟨fun hp => ?_, fun hi hp => ?_, ?_, h.ready, fun a ha => ?_, fun hg => ?_⟩
      · simp only at hp; omega
      · simp only at hp; omega
      · have := h.count; simp only; omega
      · have := h.check a ha; simp only; omega
      · exfalso
        rcases (h.batch hg).2 t hc.1 with e | e | e <;> rw [e] at hc <;> cases hc.2.1
    · cases hs
  | next =>
    simp only [qwStep] at hs
    split at hs <;> cases hs
    rename_i hc
    refine ⟨h.woken, h.last, h.count, ⟨fun hi => ?_, fun hd => (by cases hd)⟩, fun a ha => (by cases ha), fun hg => (by cases hg)⟩
    have := h.ready.1 hi; rw [hc.1] at this; cases this
  | countThreads =>
    simp only [qwStep] at hs
    split at hs <;> cases hs
    rename_i hc
    refine ⟨h.woken, h.last, h.count, ⟨fun hi => ?_, fun hd => (by cases hd)⟩, fun a ha => ?_, fun hg => (by cases hg)⟩
    · have := h.ready.1 hi; rw [hc] at this; cases this
    · simp only [DirPh.check.injEq] at ha
      rw [← ha, running_eq]
      exact Nat.le_refl _
  | look =>
    simp only [qwStep] at hs
    split at hs
    · rename_i a hd
      have hni : s.init ≠ true := fun hi => by have := h.ready.1 hi; rw [hd] at this; cases this
      split at hs
      · cases hs
        refine ⟨h.woken, h.last, h.count, ⟨fun hi => absurd hi hni, fun hd => ?_⟩, fun a ha => ?_, fun hg => ?_⟩
        · simp only at hd; split at hd <;> cases hd
        · simp only at ha; split at ha <;> cases ha
        · simp only at hg; split at hg <;> cases hg
      · rename_i hq
        cases hs
        refine ⟨h.woken, h.last, h.count, ⟨fun hi => absurd hi hni, fun hd => (by cases hd)⟩, fun a ha => (by cases ha), fun _ => ?_⟩
        have hq0 : s.queue = 0 := by
          by_cases e : s.queue = 0
          · exact e
          · exact absurd (.inl e) hq
        have hw : ¬ s.waiters < a := fun e => hq (.inr e)
        refine ⟨hq0, fun u hu => ?_⟩
        have hc := h.count
        have hr := h.check a hd
        have := tsum_eq (f := wV) (g := wR) (th := s.th) (fun p => by cases p <;> simp [wV, wR]) (by omega) u hu
        cases e : s.th u <;> simp_all [wV, wR]
    · cases hs
  | generated more =>
    simp only [qwStep] at hs
    split at hs <;> cases hs
    rename_i hc
    refine ⟨h.woken, h.last, h.count, ⟨fun hi => ?_, fun hd => ?_⟩, fun a ha => ?_, fun hg => ?_⟩
    · have := h.ready.1 hi; rw [hc] at this; cases this
    · simp only at hd; split at hd <;> cases hd
    · simp only at ha; split at ha <;> cases ha
    · simp only at hg; split at hg <;> cases hg
  | close =>
    simp only [qwStep] at hs
    split at hs <;> cases hs
    rename_i hc
    refine ⟨h.woken, h.last, h.count, ⟨fun hi => ?_, fun hd => (by cases hd)⟩, fun a ha => (by cases ha), fun hg => (by cases hg)⟩
    have := h.ready.1 hi; rw [hc] at this; cases this
  | finish d ws =>
    simp only [qwStep] at hs
    split at hs
    · split at hs
      · rename_i s1 h1
        obtain ⟨a1, a2, a3, a4⟩ := smartNotify_spec h1
        simp only at a1 a2 a3 a4
        have := a2.v
        have := a2.r
        have q1 : s1.queue = s.queue + d := by rw [a1]
        have q2 : s1.init = true := by rw [a1]
        have q3 : s1.waiters = s.waiters := by rw [a1]
        have q4 : s1.dir = .done := by rw [a1]
        split at hs <;> cases hs
        · rename_i hq
          refine ⟨fun hp => ?_, fun _ hp => ?_, ?_, ⟨fun _ => q4, fun _ => q2⟩, fun a ha => ?_, fun hg => ?_⟩
          · rw [wakeAll_A] at hp; omega
          · rw [wakeAll_A] at hp; omega
          · rw [wakeAll_V]; have := h.count; simp only [QW.wakeAll]; omega
          · simp only [QW.wakeAll, q4] at ha; cases ha
          · simp only [QW.wakeAll, q4] at hg; cases hg
        · rename_i hq
          refine ⟨fun hp => ?_, fun _ hp => ?_, ?_, ⟨fun _ => q4, fun _ => q2⟩, fun a ha => ?_, fun hg => ?_⟩
          · have := h.woken (by omega); have := a4 hp; omega
          · omega
          · have := h.count; omega
          · rw [q4] at ha; cases ha
          · rw [q4] at hg; cases hg
      · cases hs
    · cases hs

theorem QWInv.run {c : WCfg} : ∀ {es : List QWEvent} {s s' : QW}, QWInv c s → qwRun c s es = some s' → QWInv c s' := by
  intro es
  induction es with
  | nil => intro s s' h hs; cases hs; exact h
  | cons e es ih =>
    intro s s' h hs
    simp only [qwRun] at hs
    split at hs
    · rename_i s1 h1; exact ih (h.step h1) hs
    · cases hs

end Wdt
