import Verif.Props.ThreadsController
import Mathlib.Data.List.Induction
/-
C33: when a receiver thread says DONE.
-/
namespace Wdt

/-- Does the event take thread `t` off the connection it has? -/
def REvent.drops (t : Nat) : REvent → Bool
  | .connLost u => u == t
  | .accepted u _ => u == t
  | .waitFailed u => u == t
  | .doneSent u _ => u == t
  | .error u => u == t
  | .globalWritten u false => u == t
  | _ => false

/-- The last thing thread `t` received, on the connection it still has, is the sender's DONE. -/
def GotDone (t : Nat) (es : List REvent) : Prop :=
  ∃ es₁ es₂ : List REvent, es = es₁ ++ .doneCmd t :: es₂ ∧ ∀ e ∈ es₂, e.drops t = false ∧ e ≠ .file t

/-- Thread `t` wrote checkpoint number `i` to its connection, on which it is still. -/
def Wrote (n t i : Nat) (es : List REvent) : Prop :=
  ∃ (es₁ es₂ : List REvent) (s : RFin), es = es₁ ++ .globalWritten t true :: es₂ ∧ rRun n {} es₁ = some s ∧
    (s.th t).phase = .sendGlobal ∧ (s.th t).cpIdx ≤ i ∧ i < (s.th t).cpIdx + (s.th t).newCps ∧
    ∀ e ∈ es₂, e.drops t = false

/-- Thread `t` wrote checkpoint number `i` to a connection and then got another command of the
sender on that connection. -/
def Handed (n t i : Nat) (es : List REvent) : Prop :=
  ∃ (es₁ es₂ : List REvent) (c : REvent), es = es₁ ++ c :: es₂ ∧ (c = .file t ∨ c = .doneCmd t) ∧ Wrote n t i es₁

theorem upd_apply {α : Type} (f : Nat → α) (t : Nat) (a : α) (u : Nat) :
    upd f t a u = if u = t then a else f u := rfl

theorem rRun_snoc (n : Nat) (s : RFin) (es : List REvent) (e : REvent) :
    rRun n s (es ++ [e]) = (rRun n s es).bind fun s' => rStep n s' e := by
  induction es generalizing s with
  | nil =>
    simp only [List.nil_append, rRun, Option.bind_some]
    cases rStep n s e <;> rfl
  | cons a es ih =>
    simp only [List.cons_append, rRun]
    cases rStep n s a with
    | none => rfl
    | some s' => exact ih s'

theorem GotDone.snoc {t : Nat} {es : List REvent} {e : REvent} (h : GotDone t es) (h1 : e.drops t = false)
    (h2 : e ≠ .file t) : GotDone t (es ++ [e]) := by
  obtain ⟨a, b, rfl, hb⟩ := h
  refine ⟨a, b ++ [e], by simp, fun x hx => ?_⟩
  simp only [List.mem_append, List.mem_singleton] at hx
  rcases hx with hx | rfl
  · exact hb x hx
  · exact ⟨h1, h2⟩

theorem Wrote.snoc {n t i : Nat} {es : List REvent} {e : REvent} (h : Wrote n t i es) (h1 : e.drops t = false) :
    Wrote n t i (es ++ [e]) := by
  obtain ⟨a, b, s, rfl, hr, hp, h2, h3, hb⟩ := h
  refine ⟨a, b ++ [e], s, by simp, hr, hp, h2, h3, fun x hx => ?_⟩
  simp only [List.mem_append, List.mem_singleton] at hx
  rcases hx with hx | rfl
  · exact hb x hx
  · exact h1

theorem Handed.snoc {n t i : Nat} {es : List REvent} {e : REvent} (h : Handed n t i es) :
    Handed n t i (es ++ [e]) := by
  obtain ⟨a, b, c, rfl, hc, hw⟩ := h
  exact ⟨a, b ++ [e], c, by simp, hc, hw⟩

/-- Thread that executes an event. -/
def REvent.tid : REvent → Nat
  | .file t | .doneCmd t | .markWaiting t | .look t | .resume t | .query t | .finish t | .globalWritten t _
  | .waitFailed t | .doneSent t _ | .connLost t | .error t | .accepted t _ | .failed t | .silentEnd t => t

theorem drops_other {t : Nat} {e : REvent} (h : e.tid ≠ t) : e.drops t = false := by
  cases e with
  | globalWritten u ok => cases ok <;> simp_all [REvent.drops, REvent.tid]
  | _ => simp_all [REvent.drops, REvent.tid]

/-- Is the thread between the sender's DONE and its own decision? -/
def RPhase.afterDone : RPhase → Bool
  | .toWait | .waiting | .found | .nothing | .decided => true
  | _ => false

/-- Does the thread hold the condition's mutex? -/
def RPhase.locked : RPhase → Bool
  | .found | .nothing | .decided => true
  | _ => false

/-- Invariant of a thread. -/
structure RThrInv (n : Nat) (es : List REvent) (s : RFin) (t : Nat) : Prop where
  lock : (s.th t).phase.locked = true ↔ s.lock = some t
  le1 : (s.th t).cpIdx ≤ (s.th t).pending
  le2 : (s.th t).pending ≤ s.cps.length
  le3 : (s.th t).phase = .found ∨ (s.th t).phase = .sendGlobal →
    (s.th t).cpIdx + (s.th t).newCps ≤ s.cps.length
  all : (s.th t).phase = .nothing ∨ (s.th t).phase = .decided → s.cps.length ≤ (s.th t).cpIdx
  mark : (s.th t).mark = .waiting → (s.th t).phase.afterDone = true
  got : (s.th t).phase.afterDone = true → GotDone t es
  fin : (s.th t).mark = .finished ∨ (s.th t).phase = .sendDone → .finish t ∈ es ∨ .failed t ∈ es ∨ .silentEnd t ∈ es
  handed : ∀ i, i < (s.th t).cpIdx → Handed n t i es
  wrote : (s.th t).phase = .reading → ∀ i, (s.th t).cpIdx ≤ i → i < (s.th t).pending → Wrote n t i es

/-- Invariant. -/
structure RInv (n : Nat) (es : List REvent) (s : RFin) : Prop where
  thr : ∀ t, RThrInv n es s t
  cps : ∀ t, .failed t ∈ es ↔ t ∈ s.cps

theorem RInv.init (n : Nat) : RInv n [] {} := by
  constructor
  · intro t
    constructor <;> simp [RPhase.locked, RPhase.afterDone]
  · simp

/-- Threads other than the one that moves. -/
theorem RThrInv.other {n : Nat} {es : List REvent} {s s' : RFin} {e : REvent} {t : Nat} (h : RThrInv n es s t)
    (hne : e.tid ≠ t) (hth : s'.th t = s.th t) (hcps : s'.cps = s.cps ∨ (s.lock = none ∧ ∃ x, s'.cps = s.cps ++ [x]))
    (hlock : s'.lock = some t ↔ s.lock = some t) : RThrInv n (es ++ [e]) s' t := by
  have hd := drops_other hne
  have hnf : e ≠ .file t := by rintro rfl; exact hne rfl
  have hlen : s.cps.length ≤ s'.cps.length := by
    rcases hcps with h | ⟨_, x, h⟩ <;> rw [h] <;> simp
  constructor
  · rw [hth, hlock]; exact h.lock
  · rw [hth]; exact h.le1
  · rw [hth]; exact Nat.le_trans h.le2 hlen
  · rw [hth]; exact fun hp => Nat.le_trans (h.le3 hp) hlen
  · rw [hth]; intro hp
    rcases hcps with hc | ⟨hl, x, hc⟩
    · rw [hc]; exact h.all hp
    · have : (s.th t).phase.locked = true := by rcases hp with hp | hp <;> rw [hp] <;> rfl
      rw [h.lock, hl] at this; cases this
  · rw [hth]; exact h.mark
  · rw [hth]; exact fun hp => (h.got hp).snoc hd hnf
  · rw [hth]; intro hm
    rcases h.fin hm with h | h | h
    · exact .inl (List.mem_append_left _ h)
    · exact .inr (.inl (List.mem_append_left _ h))
    · exact .inr (.inr (List.mem_append_left _ h))
  · rw [hth]; exact fun i hi => (h.handed i hi).snoc
  · rw [hth]; exact fun hp i h1 h2 => (h.wrote hp i h1 h2).snoc hd

theorem Wrote.handed {n t i : Nat} {es : List REvent} {c : REvent} (h : Wrote n t i es)
    (hc : c = .file t ∨ c = .doneCmd t) : Handed n t i (es ++ [c]) :=
  ⟨es, [], c, rfl, hc, h⟩

theorem GotDone.new (t : Nat) (es : List REvent) : GotDone t (es ++ [.doneCmd t]) :=
  ⟨es, [], rfl, by simp⟩

theorem Wrote.new {n t i : Nat} {es : List REvent} {s : RFin} (hr : rRun n {} es = some s)
    (hp : (s.th t).phase = .sendGlobal) (h1 : (s.th t).cpIdx ≤ i) (h2 : i < (s.th t).cpIdx + (s.th t).newCps) :
    Wrote n t i (es ++ [.globalWritten t true]) :=
  ⟨es, [], s, rfl, hr, hp, h1, h2, by simp⟩

/-- A step changes one thread only, and the list of checkpoints only when nobody holds the
mutex. -/
theorem rStep_other {n : Nat} {s s' : RFin} {e : REvent} (hl : ∀ t, (s.th t).phase.locked = true ↔ s.lock = some t)
    (hs : rStep n s e = some s') {t : Nat} (hne : e.tid ≠ t) :
    s'.th t = s.th t ∧ (s'.cps = s.cps ∨ (s.lock = none ∧ ∃ x, s'.cps = s.cps ++ [x])) ∧
      (s'.lock = some t ↔ s.lock = some t) := by
  have hl1 := hl e.tid
  cases e <;> simp only [rStep] at hs <;> simp only [REvent.tid] at hne hl1 <;>
    (repeat' split at hs) <;> cases hs <;>
    simp only [upd_ne _ _ (Ne.symm hne)] <;> grind [RPhase.locked]

theorem RInv.step {n : Nat} {es : List REvent} {s s' : RFin} {e : REvent} (hrun : rRun n {} es = some s)
    (h : RInv n es s) (hs : rStep n s e = some s') : RInv n (es ++ [e]) s' := by
  constructor
  · intro t
    by_cases hte : e.tid = t
    · -- the thread that moves
      obtain ⟨hlk, h1, h2, h3, h4, h5, h6, h7, h8, h9⟩ := h.thr t
      subst hte
      have hd := @Handed.snoc n e.tid
      have hg := @GotDone.snoc e.tid es e
      have hw := @Wrote.snoc n e.tid
      have hwh := @Wrote.handed n e.tid
      cases e with
      | file t =>
        simp only [REvent.tid] at *
        simp only [rStep] at hs
        split at hs <;> cases hs
        constructor <;> simp only [upd_self] <;> grind [RPhase.locked, RPhase.afterDone, REvent.drops]
      | doneCmd t =>
        simp only [REvent.tid] at *
        simp only [rStep] at hs
        split at hs <;> cases hs
        have hgn := GotDone.new t es
        constructor <;> simp only [upd_self] <;> grind [RPhase.locked, RPhase.afterDone, REvent.drops]
      | globalWritten t ok =>
        simp only [REvent.tid] at *
        simp only [rStep] at hs
        split at hs
        · have hwn := fun i => @Wrote.new n t i es s hrun
          cases ok <;> simp only [Bool.false_eq_true, if_true, if_false] at hs <;> cases hs <;>
          constructor <;> simp only [upd_self] <;> grind [RPhase.locked, RPhase.afterDone, REvent.drops]
        · cases hs
      | look t =>
        simp only [REvent.tid] at *
        simp only [rStep] at hs
        split at hs
        · split at hs <;> cases hs <;> constructor <;> simp only [upd_self] <;>
            grind [RPhase.locked, RPhase.afterDone, REvent.drops]
        · cases hs
      | query t =>
        simp only [REvent.tid] at *
        simp only [rStep] at hs
        split at hs
        · split at hs <;> cases hs <;> constructor <;> simp only [upd_self] <;>
            grind [RPhase.locked, RPhase.afterDone, REvent.drops]
        · cases hs
      | doneSent t ok =>
        simp only [REvent.tid] at *
        simp only [rStep] at hs
        split at hs
        · cases ok <;> simp only [Bool.false_eq_true, if_true, if_false] at hs <;> cases hs <;>
          constructor <;> simp only [upd_self] <;> grind [RPhase.locked, RPhase.afterDone, REvent.drops]
        · cases hs
      | accepted t ok =>
        simp only [REvent.tid] at *
        simp only [rStep] at hs
        split at hs
        · cases ok <;> simp only [Bool.false_eq_true, if_true, if_false] at hs <;> cases hs <;>
          constructor <;> simp only [upd_self] <;> grind [RPhase.locked, RPhase.afterDone, REvent.drops]
        · cases hs
      | _ =>
        simp only [REvent.tid] at *
        simp only [rStep] at hs
        split at hs <;> cases hs
        constructor <;> simp only [upd_self] <;>
          grind [RPhase.locked, RPhase.afterDone, REvent.drops]
    · have h3 := rStep_other (fun t => (h.thr t).lock) hs hte
      exact (h.thr t).other hte h3.1 h3.2.1 h3.2.2
  · have := h.cps
    intro t
    cases e <;> simp only [rStep] at hs <;> grind

theorem RInv.run {n : Nat} {es : List REvent} {s : RFin} (h : rRun n {} es = some s) : RInv n es s := by
  induction es using List.reverseRecOn generalizing s with
  | nil => simp only [rRun] at h; cases h; exact RInv.init n
  | append_singleton es e ih =>
    rw [rRun_snoc] at h
    cases h1 : rRun n {} es with
    | none => rw [h1] at h; cases h
    | some s1 => rw [h1] at h; exact (ih h1).step h1 h

/-- Thread `t` makes up its mind to say DONE in state `s`. -/
def Decides (n : Nat) (s : RFin) (t : Nat) : Prop :=
  ∃ s', rStep n s (.query t) = some s' ∧ (s'.th t).phase = .decided

theorem Decides.spec {n : Nat} {s : RFin} {t : Nat} (h : Decides n s t) :
    t < n ∧ (s.th t).phase = .nothing ∧ ∀ u, u < n → u ≠ t → (s.th u).mark ≠ .running := by
  obtain ⟨s', hs, hp⟩ := h
  simp only [rStep] at hs
  split at hs
  · rename_i ht
    split at hs
    · cases hs; simp only [upd_self] at hp; cases hp
    · rename_i hany
      refine ⟨ht.1, ht.2, fun u hu hne hm => hany ?_⟩
      rw [List.any_eq_true]
      exact ⟨u, List.mem_range.mpr hu, by simp [hne, hm]⟩
  · cases hs

/-- **C33** (partial: excludes threads that end without leaving a checkpoint, see
`C33_silent_end`, and what happens after the decision, see `C33_late_failure`).
When a receiver thread decides to say DONE, every other thread
 - got the sender's DONE as the last command on the connection it has, or
 - decided to say DONE before, or
 - ended with an error, and its checkpoint was written by the deciding thread to the sender,
   which answered on the same connection. -/
theorem C33_done_partial {n : Nat} {es : List REvent} {s : RFin} (h : rRun n {} es = some s)
    (hsilent : ∀ u, .silentEnd u ∉ es) {t : Nat} (ht : Decides n s t) {u : Nat} (hu : u < n) (hne : u ≠ t) :
    GotDone u es ∨ .finish u ∈ es ∨
      (.failed u ∈ es ∧ ∃ i, s.cps[i]? = some u ∧ Handed n t i es) := by
  have hi := RInv.run h
  obtain ⟨_, hph, hrun⟩ := ht.spec
  have hiu := hi.thr u
  cases hm : (s.th u).mark with
  | running => exact absurd hm (hrun u hu hne)
  | waiting => exact .inl (hiu.got (hiu.mark hm))
  | finished =>
    rcases hiu.fin (.inl hm) with h1 | h1 | h1
    · exact .inr (.inl h1)
    · refine .inr (.inr ⟨h1, ?_⟩)
      obtain ⟨i, hi1, hi2⟩ := List.mem_iff_getElem.mp ((hi.cps u).mp h1)
      refine ⟨i, by rw [List.getElem?_eq_getElem hi1, hi2], ?_⟩
      exact (hi.thr t).handed i (Nat.lt_of_lt_of_le hi1 ((hi.thr t).all (.inl hph)))
    · exact absurd h1 (hsilent u)

/-- **C33**: every checkpoint that exists when a thread decides to say DONE was handed to the
sender by that thread. -/
theorem C33_checkpoints_handed {n : Nat} {es : List REvent} {s : RFin} (h : rRun n {} es = some s)
    {t : Nat} (ht : Decides n s t) {i : Nat} (hi : i < s.cps.length) : Handed n t i es :=
  ((RInv.run h).thr t).handed i (Nat.lt_of_lt_of_le hi (((RInv.run h).thr t).all (.inl ht.spec.2.1)))

/-- **C33**: nobody waits for ever: if no other thread is marked as running, a waiting thread
that looks either hands over new checkpoints or decides to say DONE. -/
theorem C33_no_deadlock {n : Nat} {es : List REvent} {s : RFin} (_h : rRun n {} es = some s)
    (hlock : s.lock = none) {t : Nat} (htn : t < n) (ht : (s.th t).phase = .waiting)
    (hidle : ∀ u, u < n → u ≠ t → (s.th u).mark ≠ .running) :
    ∃ s1 s2, rStep n s (.look t) = some s1 ∧
      ((rStep n s1 (.resume t) = some s2 ∧ (s2.th t).phase = .sendGlobal) ∨
       (rStep n s1 (.query t) = some s2 ∧ (s2.th t).phase = .decided)) := by
  by_cases hc : (s.th t).cpIdx < s.cps.length
  · have h1 : rStep n s (.look t) = some { s with
        th := upd s.th t { s.th t with newCps := s.cps.length - (s.th t).cpIdx, phase := .found }, lock := some t } := by
      simp only [rStep]; rw [if_pos ⟨htn, ht, hlock⟩, if_pos hc]
    have h2 : ∃ s2, rStep n { s with
        th := upd s.th t { s.th t with newCps := s.cps.length - (s.th t).cpIdx, phase := .found }, lock := some t }
        (.resume t) = some s2 ∧ (s2.th t).phase = .sendGlobal := by
      simp only [rStep, upd_self]
      rw [if_pos ⟨htn, trivial⟩]
      exact ⟨_, rfl, by simp only [upd_self]⟩
    obtain ⟨s2, h2, h3⟩ := h2
    exact ⟨_, s2, h1, .inl ⟨h2, h3⟩⟩
  · have h1 : rStep n s (.look t) = some { s with
        th := upd s.th t { s.th t with phase := .nothing }, lock := some t } := by
      simp only [rStep]; rw [if_pos ⟨htn, ht, hlock⟩, if_neg hc]
    have hany : ¬ (List.range n).any (fun u => u != t &&
        (upd s.th t { s.th t with phase := .nothing } u).mark == .running) = true := by
      rw [List.any_eq_true]
      rintro ⟨u, hu, hx⟩
      simp only [Bool.and_eq_true, bne_iff_ne, beq_iff_eq] at hx
      rw [upd_ne _ _ hx.1] at hx
      exact hidle u (List.mem_range.mp hu) hx.1 hx.2
    have h2 : ∃ s2, rStep n { s with
        th := upd s.th t { s.th t with phase := .nothing }, lock := some t } (.query t) = some s2 ∧
        (s2.th t).phase = .decided := by
      simp only [rStep, upd_self]
      rw [if_pos ⟨htn, trivial⟩, if_neg hany]
      exact ⟨_, rfl, by simp only [upd_self]⟩
    obtain ⟨s2, h2, h3⟩ := h2
    exact ⟨_, s2, h1, .inr ⟨h2, h3⟩⟩

/-- A receiver thread that gives up because of an encryption error (ReceiverThread.cpp:197-203)
leaves no checkpoint.  Another thread then says DONE although the first never received the
sender's DONE and nothing was handed over: the full C33 is false. -/
theorem C33_silent_end : ∃ (es : List REvent) (s : RFin), rRun 2 {} es = some s ∧ Decides 2 s 1 ∧
    (s.th 0).phase = .ended ∧ s.cps = [] ∧ .doneCmd 0 ∉ es := by
  refine ⟨[.file 0, .connLost 0, .silentEnd 0, .doneCmd 1, .markWaiting 1, .look 1], _, rfl, ⟨_, rfl, rfl⟩, rfl, rfl, ?_⟩
  decide

/-- A thread whose DONE could not be delivered goes back to accepting and reading while it
counts as finished: another thread says DONE while it is receiving. -/
theorem C33_done_while_receiving : ∃ (es : List REvent) (s : RFin), rRun 2 {} es = some s ∧ Decides 2 s 1 ∧
    (s.th 0).phase = .reading ∧ es.getLast? = some (.file 0) ∧ (∀ u, .silentEnd u ∉ es) := by
  refine ⟨[.doneCmd 0, .markWaiting 0, .doneCmd 1, .markWaiting 1, .look 0, .query 0, .finish 0,
    .doneSent 0 false, .accepted 0 true, .look 1, .file 0], _, rfl, ⟨_, rfl, rfl⟩, rfl, rfl, ?_⟩
  intro u; simp

/-- A thread whose connection breaks after another one decided: its checkpoint is never handed
to the sender, all threads have ended. -/
theorem C33_late_failure : ∃ (es : List REvent) (s : RFin), rRun 2 {} es = some s ∧
    (∀ t, t < 2 → (s.th t).phase = .ended) ∧ s.cps = [1] ∧ (∀ t ok, .globalWritten t ok ∉ es) ∧
    (∀ u, .silentEnd u ∉ es) := by
  refine ⟨[.doneCmd 0, .markWaiting 0, .doneCmd 1, .markWaiting 1, .look 0, .query 0, .waitFailed 1,
    .finish 0, .accepted 1 false, .failed 1, .doneSent 0 true], _, rfl, ?_, rfl, ?_, ?_⟩
  · intro t ht
    have : t = 0 ∨ t = 1 := by omega
    rcases this with rfl | rfl <;> rfl
  · intro t ok; simp
  · intro u; simp

/-- Thread 0 fails; thread 1 hands over its checkpoint and then decides. -/
example : ∃ (es : List REvent) (s : RFin), rRun 2 {} es = some s ∧ Decides 2 s 1 ∧ s.cps = [0] ∧
    (∀ u, .silentEnd u ∉ es) := by
  refine ⟨[.file 0, .connLost 0, .doneCmd 1, .markWaiting 1, .accepted 0 false, .failed 0, .look 1, .resume 1,
    .globalWritten 1 true, .file 1, .doneCmd 1, .markWaiting 1, .look 1], _, rfl, ⟨_, rfl, rfl⟩, rfl, ?_⟩
  intro u; simp

end Wdt
