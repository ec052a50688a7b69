import Verif.Lemmas.QueueWait
import Verif.Props.ReceiverFinish
/-
C75: when nothing more comes from the sender, the receiver ends.
-/
namespace Wdt

/-- Steps that the receiver does although nothing comes from the sender: no command is read and no
connection accepted. -/
def REvent.alone : REvent → Bool
  | .file _ | .doneCmd _ | .accepted _ true => false
  | _ => true

/-- Steps that are certain to be possible because nothing is needed for them but that time passes:
reads and accepts time out (`connLost`, `accepted`, `doneSent` without success); a write returns,
with either result; the thread goes on by itself. -/
def REvent.timely : REvent → Bool
  | .file _ | .doneCmd _ | .accepted _ true | .doneSent _ true | .waitFailed _ | .error _ | .silentEnd _ => false
  | _ => true

/-- The steps that a thread repeats while it waits for other threads. -/
def REvent.polls : REvent → Bool
  | .look _ | .query _ => true
  | _ => false

/-- How many steps are at most ahead of a thread. -/
def RThr.ahead (r : RThr) : Nat :=
  match r.phase with
  | .toWait => 6
  | .waiting | .found | .nothing => 5
  | .decided | .sendGlobal => 4
  | .sendDone | .reading => 3
  | .accepting => 2
  | .failing => 1
  | .ended => 0

theorem ahead_step {n : Nat} {s s' : RFin} {e : REvent} (hs : rStep n s e = some s') (ha : e.alone = true) :
    tsum n RThr.ahead s'.th + (if e.polls then 0 else 1) ≤ tsum n RThr.ahead s.th := by
  have key : ∀ (t : Nat) (a : RThr) (k : Nat), t < n → a.ahead + k ≤ (s.th t).ahead →
      tsum n RThr.ahead (upd s.th t a) + k ≤ tsum n RThr.ahead s.th := by
    intro t a k ht h
    have := tsum_upd RThr.ahead s.th a ht
    omega
  cases e <;> simp only [rStep] at hs <;> (repeat' split at hs) <;> cases hs <;>
    simp only [REvent.alone, Bool.false_eq_true] at ha <;>
    simp_all only [] <;>
    (first
      | (refine key _ _ _ (by grind) ?_; grind [RThr.ahead, REvent.polls])
      | grind [REvent.alone])

theorem ahead_run {n : Nat} {s s' : RFin} {es : List REvent} (h : rRun n s es = some s')
    (ha : ∀ e ∈ es, e.alone = true) :
    (es.filter fun e => !e.polls).length + tsum n RThr.ahead s'.th ≤ tsum n RThr.ahead s.th := by
  induction es generalizing s with
  | nil => cases h; simp
  | cons e es ih =>
    simp only [rRun] at h
    split at h
    · cases h
    · rename_i s1 hs1
      have h1 := ahead_step hs1 (ha e (by simp))
      have h2 := ih h fun x hx => ha x (by simp [hx])
      cases hp : e.polls
      · rw [List.filter_cons_of_pos (by simp [hp]), List.length_cons]
        simp only [hp, Bool.false_eq_true, if_false] at h1
        omega
      · rw [List.filter_cons_of_neg (by simp [hp])]
        simp only [hp, if_true] at h1
        omega

/-- **C75**: while nothing comes from the sender the receiver's threads do at most six steps each,
apart from looking for new checkpoints and running threads. -/
theorem C75_bounded {n : Nat} {s s' : RFin} {es : List REvent} (h : rRun n s es = some s')
    (ha : ∀ e ∈ es, e.alone = true) : (es.filter fun e => !e.polls).length ≤ 6 * n := by
  have key := ahead_run h ha
  have hle : tsum n RThr.ahead s.th ≤ 6 * n := by
    clear key h ha
    induction n with
    | zero => simp [tsum]
    | succ n ih =>
      rw [tsum_succ]
      have : (s.th n).ahead ≤ 6 := by unfold RThr.ahead; split <;> omega
      omega
  omega

/-- What the marks say. -/
def MarkInv (s : RFin) (t : Nat) : Prop :=
  ((s.th t).phase.afterDone = true → (s.th t).phase ≠ .toWait → (s.th t).mark = .waiting) ∧
  ((s.th t).phase = .ended → (s.th t).mark = .finished)

theorem MarkInv.step {n : Nat} {s s' : RFin} {e : REvent} {t : Nat} (h : MarkInv s t)
    (hs : rStep n s e = some s') : MarkInv s' t := by
  unfold MarkInv at *
  cases e <;> simp only [rStep] at hs <;> (repeat' split at hs) <;> cases hs <;>
    simp only [upd] <;> split <;> grind [RPhase.afterDone]

theorem MarkInv.run {n : Nat} {s s' : RFin} {es : List REvent} {t : Nat} (h : MarkInv s t)
    (hr : rRun n s es = some s') : MarkInv s' t := by
  induction es generalizing s with
  | nil => cases hr; exact h
  | cons e es ih =>
    simp only [rRun] at hr
    split at hr
    · cases hr
    · rename_i s1 hs1; exact ih (h.step hs1) hr

theorem rRun_append {n : Nat} {s s1 s2 : RFin} {es1 es2 : List REvent} (h1 : rRun n s es1 = some s1)
    (h2 : rRun n s1 es2 = some s2) : rRun n s (es1 ++ es2) = some s2 := by
  induction es1 generalizing s with
  | nil => cases h1; exact h2
  | cons e es ih =>
    simp only [rRun, List.cons_append] at h1 ⊢
    split at h1
    · cases h1
    · exact ih h1

/-- What is needed of a reachable state. -/
structure RGood (n : Nat) (s : RFin) : Prop where
  lock : ∀ t, (s.th t).phase.locked = true ↔ s.lock = some t
  mark : ∀ t, MarkInv s t
  inside : ∀ t, s.lock = some t → t < n

theorem RGood.run {n : Nat} {es : List REvent} {s : RFin} (h : rRun n {} es = some s) : RGood n s := by
  refine ⟨fun t => ((RInv.run h).thr t).lock, fun t => MarkInv.run (s := {}) ?_ h, ?_⟩
  · simp [MarkInv, RPhase.afterDone]
  · have key : ∀ (s : RFin) (es : List REvent) (s' : RFin), (∀ t, s.lock = some t → t < n) →
        rRun n s es = some s' → ∀ t, s'.lock = some t → t < n := by
      intro s es
      induction es generalizing s with
      | nil => intro s' hi hr; cases hr; exact hi
      | cons e es ih =>
        intro s' hi hr
        simp only [rRun] at hr
        split at hr
        · cases hr
        · rename_i s1 hs1
          refine ih s1 s' ?_ hr
          clear ih hr
          cases e <;> simp only [rStep] at hs1 <;> (repeat' split at hs1) <;> cases hs1 <;> grind
    exact key {} es s (by simp) h

theorem rRun_one {n : Nat} {s s' : RFin} {e : REvent} (h : rStep n s e = some s') : rRun n s [e] = some s' := by
  simp [rRun, h]

/-- A step of a thread that neither waits nor has ended. -/
theorem own_step {n : Nat} {s : RFin} {t : Nat} (hlock : s.lock = none) (ht : t < n)
    (hl : (s.th t).phase.locked = false) (hw : (s.th t).phase ≠ .waiting) (he : (s.th t).phase ≠ .ended) :
    ∃ e s', rStep n s e = some s' ∧ e.timely = true ∧ e.polls = false := by
  cases hp : (s.th t).phase with
  | reading => exact ⟨.connLost t, _, by simp only [rStep]; rw [if_pos ⟨ht, hp⟩], rfl, rfl⟩
  | toWait => exact ⟨.markWaiting t, _, by simp only [rStep]; rw [if_pos ⟨ht, hp⟩], rfl, rfl⟩
  | waiting => exact absurd hp hw
  | found => rw [hp] at hl; cases hl
  | nothing => rw [hp] at hl; cases hl
  | decided => rw [hp] at hl; cases hl
  | sendGlobal => exact ⟨.globalWritten t true, _, by simp only [rStep]; rw [if_pos ⟨ht, hp⟩, if_pos trivial], rfl, rfl⟩
  | sendDone =>
    exact ⟨.doneSent t false, _, by simp only [rStep]; rw [if_pos ⟨ht, hp⟩, if_neg (by simp)], rfl, rfl⟩
  | accepting =>
    exact ⟨.accepted t false, _, by simp only [rStep]; rw [if_pos ⟨ht, hp⟩, if_neg (by simp)], rfl, rfl⟩
  | failing => exact ⟨.failed t, _, by simp only [rStep]; rw [if_pos ⟨ht, hp, hlock⟩], rfl, rfl⟩
  | ended => exact absurd hp he

theorem resume_step {n : Nat} {s : RFin} {t : Nat} (ht : t < n) (hp : (s.th t).phase = .found) :
    ∃ s', rStep n s (.resume t) = some s' := ⟨_, by simp only [rStep]; rw [if_pos ⟨ht, hp⟩]⟩

theorem finish_step {n : Nat} {s : RFin} {t : Nat} (ht : t < n) (hp : (s.th t).phase = .decided) :
    ∃ s', rStep n s (.finish t) = some s' := ⟨_, by simp only [rStep]; rw [if_pos ⟨ht, hp⟩]⟩

/-- Steps after which something other than looking has been done. -/
def Advances (n : Nat) (s : RFin) : Prop :=
  ∃ es s', rRun n s es = some s' ∧ (∀ e ∈ es, e.timely = true) ∧ ∃ e ∈ es, e.polls = false

theorem Advances.cons {n : Nat} {s s1 : RFin} {e : REvent} (h : rStep n s e = some s1) (ht : e.timely = true)
    (ha : Advances n s1) : Advances n s := by
  obtain ⟨es, s', hr, h1, x, hx, hp⟩ := ha
  refine ⟨e :: es, s', by simp [rRun, h, hr], ?_, x, by simp [hx], hp⟩
  intro y hy
  rcases List.mem_cons.mp hy with rfl | hy
  · exact ht
  · exact h1 y hy

theorem Advances.one {n : Nat} {s s1 : RFin} {e : REvent} (h : rStep n s e = some s1) (ht : e.timely = true)
    (hp : e.polls = false) : Advances n s :=
  ⟨[e], s1, rRun_one h, by simpa using ht, e, by simp, hp⟩

/-- A thread that has found nothing asks whether another one is running. -/
theorem query_step {n : Nat} {s : RFin} {t : Nat} (ht : t < n) (hp : (s.th t).phase = .nothing) :
    (∃ s1, rStep n s (.query t) = some s1 ∧ (s1.th t).phase = .decided) ∨
    (∃ s1 u, rStep n s (.query t) = some s1 ∧ s1.lock = none ∧ u < n ∧ u ≠ t ∧ s1.th u = s.th u ∧
      (s.th u).mark = .running) := by
  by_cases hany : (List.range n).any (fun u => u != t && (s.th u).mark == .running) = true
  · obtain ⟨u, hu, hx⟩ := List.any_eq_true.mp hany
    simp only [Bool.and_eq_true, bne_iff_ne, beq_iff_eq] at hx
    exact .inr ⟨_, u, by simp only [rStep]; rw [if_pos ⟨ht, hp⟩, if_pos hany], rfl, List.mem_range.mp hu, hx.1,
      upd_ne _ _ hx.1, hx.2⟩
  · exact .inl ⟨_, by simp only [rStep]; rw [if_pos ⟨ht, hp⟩, if_neg hany], by simp only [upd_self]⟩

theorem nothing_advances {n : Nat} {s : RFin} {t : Nat} (hg : RGood n s) (ht : t < n)
    (hp : (s.th t).phase = .nothing) : Advances n s := by
  rcases query_step ht hp with ⟨s1, h1, h2⟩ | ⟨s1, u, h1, hl, hu, hut, hthe, hm⟩
  · obtain ⟨s2, h3⟩ := finish_step ht h2
    exact .cons h1 rfl (.one h3 rfl rfl)
  · have hlk : s.lock = some t := (hg.lock t).1 (by rw [hp]; rfl)
    have hul : (s.th u).phase.locked = false := by
      cases h : (s.th u).phase.locked
      · rfl
      · rw [hg.lock u, hlk] at h
        exact absurd (Option.some.inj h).symm hut
    have hm2 := hg.mark u
    obtain ⟨e, s2, h3, h4, h5⟩ := own_step (s := s1) (t := u) hl hu (by rw [hthe]; exact hul)
      (by rw [hthe]; intro hx; have := hm2.1 (by rw [hx]; rfl) (by rw [hx]; decide); rw [hm] at this; cases this)
      (by rw [hthe]; intro hx; have := hm2.2 hx; rw [hm] at this; cases this)
    exact .cons h1 rfl (.one h3 h4 h5)

/-- **C75**: as long as a thread of the receiver has not ended there is something that the
receiver does by itself and that is not only looking: it does not hang. -/
theorem C75_no_hang {n : Nat} {es : List REvent} {s : RFin} (h : rRun n {} es = some s) {t : Nat} (ht : t < n)
    (he : (s.th t).phase ≠ .ended) :
    ∃ es' s', rRun n s es' = some s' ∧ (∀ e ∈ es', e.timely = true) ∧ ∃ e ∈ es', e.polls = false := by
  have hg := RGood.run h
  show Advances n s
  cases hl : s.lock with
  | some u =>
    have hu := hg.inside u hl
    have hlk := (hg.lock u).2 hl
    cases hp : (s.th u).phase with
    | found => obtain ⟨s1, h1⟩ := resume_step hu hp; exact .one h1 rfl rfl
    | nothing => exact nothing_advances hg hu hp
    | decided => obtain ⟨s1, h1⟩ := finish_step hu hp; exact .one h1 rfl rfl
    | _ => rw [hp] at hlk; cases hlk
  | none =>
    have hnl : (s.th t).phase.locked = false := by
      cases hx : (s.th t).phase.locked
      · rfl
      · rw [hg.lock t, hl] at hx; cases hx
    by_cases hw : (s.th t).phase = .waiting
    · by_cases hc : (s.th t).cpIdx < s.cps.length
      · have h1 : ∃ s1, rStep n s (.look t) = some s1 ∧ (s1.th t).phase = .found :=
          ⟨_, by simp only [rStep]; rw [if_pos ⟨ht, hw, hl⟩, if_pos hc], by simp only [upd_self]⟩
        obtain ⟨s1, h1, h2⟩ := h1
        obtain ⟨s2, h3⟩ := resume_step ht h2
        exact .cons h1 rfl (.one h3 rfl rfl)
      · have h1 : ∃ s1, rStep n s (.look t) = some s1 ∧ (s1.th t).phase = .nothing :=
          ⟨_, by simp only [rStep]; rw [if_pos ⟨ht, hw, hl⟩, if_neg hc], by simp only [upd_self]⟩
        obtain ⟨s1, h1, h2⟩ := h1
        have hg1 : RGood n s1 := RGood.run (es := es ++ [.look t]) (by rw [rRun_snoc, h]; exact h1)
        exact .cons h1 rfl (nothing_advances hg1 ht h2)
    · obtain ⟨e, s1, h1, h2, h3⟩ := own_step hl ht hnl hw he
      exact .one h1 h2 h3

theorem timely_alone {e : REvent} (h : e.timely = true) : e.alone = true := by
  cases e <;> first | rfl | cases h | (rename_i b; cases b <;> first | rfl | cases h)

/-- **C75**: whatever has happened, all threads of the receiver can end although nothing more
comes from the sender. -/
theorem C75_ends {n : Nat} {es : List REvent} {s : RFin} (h : rRun n {} es = some s) :
    ∃ es' s', rRun n s es' = some s' ∧ (∀ e ∈ es', e.timely = true) ∧ ∀ t < n, (s'.th t).phase = .ended := by
  generalize hk : tsum n RThr.ahead s.th = k
  induction k using Nat.strongRecOn generalizing s es with
  | ind k ih =>
    by_cases hall : ∀ t < n, (s.th t).phase = .ended
    · exact ⟨[], s, rfl, by simp, hall⟩
    · obtain ⟨t, ht⟩ := Classical.not_forall.mp hall
      obtain ⟨ht, he⟩ := Classical.not_imp.mp ht
      obtain ⟨es1, s1, h1, h2, x, hx, hp⟩ := C75_no_hang h ht he
      have h3 := ahead_run h1 fun e he => timely_alone (h2 e he)
      have h4 : 0 < (es1.filter fun e => !e.polls).length :=
        List.length_pos_of_mem (List.mem_filter.mpr ⟨hx, by simp [hp]⟩)
      obtain ⟨es2, s2, g1, g2, g3⟩ := ih (tsum n RThr.ahead s1.th) (by omega) (rRun_append h h1) rfl
      refine ⟨es1 ++ es2, s2, rRun_append h1 g1, ?_, g3⟩
      intro e hm
      rcases List.mem_append.mp hm with hm | hm
      · exact h2 e hm
      · exact g2 e hm

/-- The sender has gone while one thread waits, one reads and one has lost its connection. -/
def exSilent : List REvent := [.file 0, .doneCmd 0, .markWaiting 0, .file 1, .connLost 2, .look 0, .query 0]

example : ∃ s, rRun 3 {} exSilent = some s ∧ (s.th 0).phase = .waiting ∧ (s.th 1).phase = .reading ∧
    (s.th 2).phase = .accepting := by
  refine ⟨_, rfl, rfl, rfl, rfl⟩

/-- Thread 0 first hands over the checkpoint of thread 2, to a sender that does not answer, and
then gives up as well. -/
example : ∃ s, rRun 3 {} (exSilent ++ [.connLost 1, .accepted 2 false, .failed 2, .look 0, .resume 0,
      .globalWritten 0 true, .connLost 0, .accepted 1 false, .accepted 0 false, .failed 0, .failed 1]) = some s ∧
    ∀ t < 3, (s.th t).phase = .ended := by
  refine ⟨_, rfl, ?_⟩
  intro t ht
  match t, ht with
  | 0, _ => rfl
  | 1, _ => rfl
  | 2, _ => rfl

end Wdt
