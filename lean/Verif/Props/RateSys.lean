import Verif.Model.RateSys
import Verif.Props.Throttler
import Mathlib.Algebra.BigOperators.Group.Finset.Piecewise
import Mathlib.Algebra.BigOperators.Group.Finset.Basic
import Mathlib.Algebra.Order.BigOperators.Group.Finset
import Mathlib.Tactic.Linarith
import Mathlib.Tactic.Ring
import Mathlib.Tactic.Positivity
import Mathlib.Tactic.FieldSimp
/-
C92: transfers that share a throttler together keep to its average rate.
-/
namespace Wdt

/-- Sum of the amounts. -/
def totalAmt : List Charge → Int
  | [] => 0
  | e :: l => e.amt + totalAmt l

/-- Sum of the amounts of thread `t` that were (`b`) or were not written. -/
def amtOf (t : Nat) (b : Bool) : List Charge → Int
  | [] => 0
  | e :: l => (if e.th = t ∧ e.done = b then e.amt else 0) + amtOf t b l

/-- Sum of the amounts that were written. -/
def doneAmt : List Charge → Int
  | [] => 0
  | e :: l => (if e.done then e.amt else 0) + doneAmt l

/-- Requests wake late enough. -/
def LogOk (A t0 : ℚ) : List Charge → Prop
  | [] => True
  | e :: l => 0 ≤ e.amt ∧ (totalAmt (e :: l) : ℚ) ≤ A * (e.wake - t0) ∧ LogOk A t0 l

theorem LogOk.nonneg {A t0 : ℚ} {l : List Charge} (h : LogOk A t0 l) : ∀ e ∈ l, 0 ≤ e.amt := by
  induction l with
  | nil => simp
  | cons e l ih =>
    intro x hx
    rcases List.mem_cons.1 hx with rfl | hx
    · exact h.1
    · exact ih h.2.2 x hx

theorem doneAmt_le_total {l : List Charge} (h : ∀ e ∈ l, 0 ≤ e.amt) : doneAmt l ≤ totalAmt l := by
  induction l with
  | nil => simp [doneAmt, totalAmt]
  | cons e l ih =>
    have h1 := h e (by simp)
    have h2 := ih fun x hx => h x (by simp [hx])
    simp only [doneAmt, totalAmt]
    split <;> omega

theorem doneAmt_bound {A t0 T : ℚ} {l : List Charge} (hA : 0 < A) (h : LogOk A t0 l)
    (hd : ∀ e ∈ l, e.done = true → e.wake ≤ T) (ht : t0 ≤ T) : (doneAmt l : ℚ) ≤ A * (T - t0) := by
  induction l with
  | nil =>
    have : 0 ≤ A * (T - t0) := mul_nonneg hA.le (by linarith)
    simpa [doneAmt] using this
  | cons e l ih =>
    by_cases he : e.done = true
    · have h1 : doneAmt (e :: l) ≤ totalAmt (e :: l) := doneAmt_le_total h.nonneg
      have h2 := hd e (by simp) he
      have h3 : A * (e.wake - t0) ≤ A * (T - t0) := mul_le_mul_of_nonneg_left (by linarith) hA.le
      have h4 : (doneAmt (e :: l) : ℚ) ≤ (totalAmt (e :: l) : ℚ) := by exact_mod_cast h1
      linarith [h.2.1]
    · have := ih h.2.2 (fun x hx => hd x (by simp [hx]))
      simpa [doneAmt, he] using this

theorem amtOf_nonneg {l : List Charge} (h : ∀ e ∈ l, 0 ≤ e.amt) (t : Nat) (b : Bool) : 0 ≤ amtOf t b l := by
  induction l with
  | nil => simp [amtOf]
  | cons e l ih =>
    have h1 := h e (by simp)
    have h2 := ih fun x hx => h x (by simp [hx])
    simp only [amtOf]
    split <;> omega

theorem sum_amtOf_le {l : List Charge} (h : ∀ e ∈ l, 0 ≤ e.amt) (n : Nat) :
    ∑ t ∈ Finset.range n, amtOf t true l ≤ doneAmt l := by
  induction l with
  | nil => simp [amtOf, doneAmt]
  | cons e l ih =>
    have h1 := h e (by simp)
    have h2 := ih fun x hx => h x (by simp [hx])
    simp only [amtOf, doneAmt, Finset.sum_add_distrib]
    by_cases hd : e.done = true
    · have : ∑ t ∈ Finset.range n, (if e.th = t ∧ e.done = true then e.amt else 0) ≤ e.amt := by
        simp only [hd, and_true]
        rw [Finset.sum_ite_eq]
        split <;> omega
      rw [if_pos hd]
      omega
    · have : ∑ t ∈ Finset.range n, (if e.th = t ∧ e.done = true then e.amt else 0) = 0 :=
        Finset.sum_eq_zero fun t _ => by simp [hd]
      rw [if_neg hd, this]
      omega

/-- Marking thread `t`'s requests as written. -/
def markDone (t : Nat) (l : List Charge) : List Charge := l.map fun e => if e.th = t then { e with done := true } else e

theorem markDone_total (t : Nat) (l : List Charge) : totalAmt (markDone t l) = totalAmt l := by
  induction l with
  | nil => rfl
  | cons e l ih =>
    unfold markDone at *
    simp only [List.map_cons, totalAmt, ih]
    split <;> rfl

theorem markDone_ok {A t0 : ℚ} (t : Nat) {l : List Charge} (h : LogOk A t0 l) : LogOk A t0 (markDone t l) := by
  induction l with
  | nil => exact h
  | cons e l ih =>
    have hc : markDone t (e :: l) = (if e.th = t then { e with done := true } else e) :: markDone t l := rfl
    have ht := markDone_total t l
    have h2 := h.2.1
    simp only [totalAmt] at h2
    rw [hc]
    refine ⟨?_, ?_, ih h.2.2⟩
    · split <;> exact h.1
    · simp only [totalAmt, ht]
      split <;> exact h2

theorem markDone_other {t u : Nat} (h : u ≠ t) (b : Bool) (l : List Charge) : amtOf u b (markDone t l) = amtOf u b l := by
  induction l with
  | nil => rfl
  | cons e l ih =>
    have hc : markDone t (e :: l) = (if e.th = t then { e with done := true } else e) :: markDone t l := rfl
    rw [hc]
    simp only [amtOf, ih]
    by_cases he : e.th = t
    · have : e.th ≠ u := fun hu => h (hu ▸ he)
      simp [he, Ne.symm h]
    · simp [he]

theorem markDone_self (t : Nat) (l : List Charge) :
    amtOf t true (markDone t l) = amtOf t true l + amtOf t false l := by
  induction l with
  | nil => rfl
  | cons e l ih =>
    have hc : markDone t (e :: l) = (if e.th = t then { e with done := true } else e) :: markDone t l := rfl
    rw [hc]
    simp only [amtOf, ih]
    by_cases he : e.th = t
    · cases hd : e.done <;> simp [he, hd] <;> omega
    · simp [he]

/-- Invariant of executions in which the rates are not changed. -/
structure RateInv (c : RateCfg) (A : ℚ) (s : RateSys) : Prop where
  single : 0 < s.thr.single
  avg : s.thr.avg = A
  nodup : s.running.Nodup
  refs : s.thr.refs = s.running.length
  busy : ∀ t, s.pc t ≠ .idle → t < c.threads ∧ c.own t ∈ s.running
  prog : ∀ t, s.prog t ≠ [] → t < c.threads ∧ c.own t ∈ s.running
  start : s.running ≠ [] → s.thr.start = s.t0 ∧ s.thr.progress = totalAmt s.log
  after : s.t0 ≤ s.time
  log : LogOk A s.t0 s.log
  woken : ∀ e ∈ s.log, e.wake ≤ s.time ∨ ∃ h n todo, s.pc e.th = .limiting h n todo e.wake ∧ e.done = false
  pend : ∀ t h n todo wake, s.pc t = .limiting h n todo wake → h + n ≤ todo + amtOf t false s.log
  lims : ∀ t, s.lim t ≤ amtOf t true s.log

/-- A request never lets the caller continue early. -/
theorem calc_wake {thr : Thr} {d : Int} {now : ℚ} (hr : 0 < thr.refs) (hA : 0 < thr.avg) :
    thr.progress + d ≤ thr.avg * (now + max 0 (thr.calculateSleep d now).2 - thr.start) := by
  have hmax : 0 ≤ max 0 (thr.calculateSleep d now).2 := le_max_left _ _
  by_cases hp : thr.progress + d > thr.avg * (now - thr.start)
  · have hpos : 0 < (thr.progress + d) / thr.avg - (now - thr.start) := by
      rw [sub_pos, lt_div_iff₀ hA]
      linarith [mul_comm thr.avg (now - thr.start)]
    have hc : (thr.calculateSleep d now).2 = (thr.progress + d) / thr.avg - (now - thr.start) := by
      unfold Thr.calculateSleep Thr.averageThrottler
      rw [if_neg (by omega)]
      simp only
      rw [if_neg (not_le.2 hA), if_pos hp, if_pos hpos]
    rw [hc, max_eq_right hpos.le]
    have e : thr.avg * (now + ((thr.progress + d) / thr.avg - (now - thr.start)) - thr.start) = thr.progress + d := by
      field_simp
      ring
    rw [e]
  · have := mul_le_mul_of_nonneg_left hmax hA.le
    rw [mul_zero] at this
    have e : ∀ x : ℚ, thr.avg * (now + x - thr.start) = thr.avg * (now - thr.start) + thr.avg * x := fun x => by ring
    rw [e]
    linarith

theorem rate_calc_keep (t : Thr) (d : Int) (now : ℚ) :
    let t' := (t.calculateSleep d now).1
    t'.start = t.start ∧ t'.refs = t.refs ∧ t'.avg = t.avg ∧ t'.single = t.single ∧
      (0 < t.refs → t'.progress = t.progress + d) := by
  have h := calc_keep t d now
  exact ⟨h.1, h.2.1, h.2.2.1, h.2.2.2.2.2, calc_progress t d now⟩

theorem put_self {α : Type} (f : Nat → α) (t : Nat) (v : α) : put f t v t = v := by simp [put]
theorem put_other {α : Type} (f : Nat → α) {t u : Nat} (h : u ≠ t) (v : α) : put f t v u = f u := by simp [put, h]

theorem RateInv.step {c : RateCfg} {A : ℚ} (hA : 0 < A) {s s' : RateSys} (h : RateInv c A s) {e : RateEv}
    (he : ∀ a p b, e ≠ .rates a p b) (hs : s.step c e = some (.ok s')) : RateInv c A s' := by
  cases e with
  | rates a p b => exact absurd rfl (he a p b)
  | tick d =>
    simp only [RateSys.step] at hs
    split at hs
    · cases hs
      exact { h with
        after := by have := h.after; dsimp; linarith
        woken := fun e he => (h.woken e he).imp (fun hh => by dsimp; linarith) id }
    · cases hs
  | start i =>
    simp only [RateSys.step] at hs
    split at hs
    case isFalse => cases hs
    case isTrue hi =>
    cases hs
    unfold RateSys.begin
    have hsingle : (s.thr.startTransfer s.time).single = s.thr.single ∧ (s.thr.startTransfer s.time).avg = s.thr.avg ∧
        (s.thr.startTransfer s.time).refs = s.thr.refs + 1 := by
      unfold Thr.startTransfer
      simp only
      split <;> simp [Thr.reset]
    simp only [List.length_cons, Nat.add_eq_right, List.length_eq_zero_iff]
    split
    case isTrue hr =>
      have hidle : ∀ t, s.pc t = .idle := fun t => by
        by_contra hp
        have := (h.busy t hp).2
        simp [hr] at this
      have hprog : ∀ t, s.prog t = [] := fun t => by
        by_contra hp
        have := (h.prog t hp).2
        simp [hr] at this
      have hrefs : s.thr.refs = 0 := by rw [h.refs, hr]; rfl
      refine { single := hsingle.1 ▸ h.single, avg := hsingle.2.1.trans h.avg, nodup := by simp [hr], refs := ?_, busy := ?_, prog := ?_,
               start := ?_, after := le_refl _, log := trivial, woken := by simp, pend := ?_, lims := ?_ }
      · simp [hsingle.2.2, hrefs, hr]
      · intro t ht; exact absurd (hidle t) ht
      · intro t ht; exact absurd (hprog t) ht
      · intro _
        simp [Thr.startTransfer, hrefs, Thr.reset, totalAmt]
      · intro t _ _ _ _ ht; simp [hidle t] at ht
      · intro t; simp [amtOf]
    case isFalse hr =>
      have hne : s.running ≠ [] := hr
      have hrefs : s.thr.refs ≠ 0 := by
        rw [h.refs]
        have := List.length_pos_of_ne_nil hne
        omega
      refine { h with single := hsingle.1 ▸ h.single, avg := hsingle.2.1.trans h.avg, nodup := List.nodup_cons.2 ⟨hi, h.nodup⟩, refs := ?_, busy := ?_, prog := ?_, start := ?_ }
      · simp only [hsingle.2.2, h.refs, List.length_cons]; push_cast; ring
      · intro t ht; exact ⟨(h.busy t ht).1, List.mem_cons_of_mem _ (h.busy t ht).2⟩
      · intro t ht; exact ⟨(h.prog t ht).1, List.mem_cons_of_mem _ (h.prog t ht).2⟩
      · intro _
        have := h.start hne
        simpa [Thr.startTransfer, hrefs] using this
  | stop i =>
    simp only [RateSys.step] at hs
    split at hs
    case isFalse => cases hs
    case isTrue hi =>
    unfold Thr.endTransfer at hs
    have hpos : s.thr.refs > 0 := by
      rw [h.refs]
      have := List.length_pos_of_mem hi.1
      omega
    rw [if_pos hpos] at hs
    cases hs
    refine { h with nodup := h.nodup.erase i, refs := ?_, busy := ?_, prog := ?_, start := ?_ }
    · simp only [h.refs, List.length_erase_of_mem hi.1]
      have := List.length_pos_of_mem hi.1
      omega
    · intro t ht
      have hb := h.busy t ht
      have hne : c.own t ≠ i := fun ho => ht (hi.2 t hb.1 ho).1
      exact ⟨hb.1, (List.mem_erase_of_ne hne).2 hb.2⟩
    · intro t ht
      have hb := h.prog t ht
      have hne : c.own t ≠ i := fun ho => ht (hi.2 t hb.1 ho).2
      exact ⟨hb.1, (List.mem_erase_of_ne hne).2 hb.2⟩
    · intro _
      exact h.start (List.ne_nil_of_mem hi.1)
  | take t acts =>
    simp only [RateSys.step] at hs
    split at hs
    case isFalse => cases hs
    case isTrue hc =>
    cases hs
    refine { h with prog := ?_ }
    intro u hu
    by_cases hut : u = t
    · subst hut; exact ⟨hc.1, hc.2.1⟩
    · exact h.prog u (by simpa [put_other _ hut] using hu)
  | drop t =>
    simp only [RateSys.step] at hs
    split at hs
    case isFalse => cases hs
    case isTrue hc =>
    cases hs
    refine { h with prog := ?_ }
    intro u hu
    by_cases hut : u = t
    · subst hut; simp [put_self] at hu
    · exact h.prog u (by simpa [put_other _ hut] using hu)
  | act t =>
    simp only [RateSys.step] at hs
    split at hs
    case isFalse => cases hs
    case isTrue hc =>
    have hprog : ∀ (r : List RAct) u, put s.prog t r u ≠ [] → u < c.threads ∧ c.own u ∈ s.running := by
      intro r u hu
      by_cases hut : u = t
      · subst hut; exact ⟨hc.1, hc.2.1⟩
      · exact h.prog u (by simpa [put_other _ hut] using hu)
    split at hs
    · cases hs
    · cases hs
      exact { h with prog := hprog _ }
    · cases hs
      exact { h with prog := hprog _ }
    · rename_i hh n r hp
      cases hs
      have hund : 0 ≤ amtOf t false s.log := amtOf_nonneg h.log.nonneg t false
      refine { h with prog := hprog _, busy := ?_, woken := ?_, pend := ?_ }
      · intro u hu
        by_cases hut : u = t
        · subst hut; exact ⟨hc.1, hc.2.1⟩
        · exact h.busy u (by simpa [put_other _ hut] using hu)
      · intro e he
        rcases h.woken e he with hw | ⟨h', n', todo', hp', hd'⟩
        · exact .inl hw
        · have hut : e.th ≠ t := fun hu => by rw [hu, hc.2.2] at hp'; cases hp'
          exact .inr ⟨h', n', todo', by simpa [put_other _ hut] using hp', hd'⟩
      · intro u h' n' todo' wake' hu
        by_cases hut : u = t
        · subst hut
          simp only [put_self, RPc.limiting.injEq] at hu
          obtain ⟨rfl, rfl, rfl, rfl⟩ := hu
          dsimp
          omega
        · exact h.pend u h' n' todo' wake' (by simpa [put_other _ hut] using hu)
  | charge t now =>
    simp only [RateSys.step] at hs
    split at hs
    case isFalse => cases hs
    case isTrue ht =>
    split at hs
    · cases hs
    rename_i hh n todo wake hpc
    split at hs
    case isFalse => cases hs
    case isTrue hc =>
    cases hs
    have hrun := (h.busy t (by simp [hpc])).2
    have hne : s.running ≠ [] := List.ne_nil_of_mem hrun
    have hrefs : 0 < s.thr.refs := by
      rw [h.refs]
      have := List.length_pos_of_mem hrun
      omega
    obtain ⟨k1, k2, k3, k4, k5⟩ := rate_calc_keep s.thr (min s.thr.single todo) now
    obtain ⟨st1, st2⟩ := h.start hne
    have hd0 : 0 ≤ min s.thr.single todo := by have := h.single; omega
    refine { single := by rw [k4]; exact h.single, avg := by rw [k3]; exact h.avg, nodup := h.nodup, refs := by rw [k2]; exact h.refs,
             busy := ?_, prog := h.prog, start := ?_, after := h.after, log := ?_, woken := ?_, pend := ?_, lims := ?_ }
    · intro u hu
      by_cases hut : u = t
      · subst hut; exact ⟨ht, hrun⟩
      · exact h.busy u (by simpa [put_other _ hut] using hu)
    · intro _
      refine ⟨k1.trans st1, ?_⟩
      rw [k5 hrefs, st2]
      simp only [totalAmt]
      push_cast
      ring
    · refine ⟨hd0, ?_, h.log⟩
      have := calc_wake (d := min s.thr.single todo) (now := now) hrefs (by rw [h.avg]; exact hA)
      rw [h.avg, st1, st2] at this
      simp only [totalAmt]
      push_cast at this ⊢
      linarith
    · intro e he
      rcases List.mem_cons.1 he with rfl | he
      · exact .inr ⟨hh, n, _, put_self _ _ _, rfl⟩
      · rcases h.woken e he with hw | ⟨h', n', todo', hp', hd'⟩
        · exact .inl hw
        · by_cases hut : e.th = t
          · rw [hut, hpc] at hp'
            simp only [RPc.limiting.injEq] at hp'
            exact .inl (by rw [← hp'.2.2.2]; dsimp; linarith [hc.2.1, hc.2.2])
          · exact .inr ⟨h', n', todo', by simpa [put_other _ hut] using hp', hd'⟩
    · intro u h' n' todo' wake' hu
      by_cases hut : u = t
      · subst hut
        have := h.pend u _ _ _ _ hpc
        simp only [put_self, RPc.limiting.injEq] at hu
        obtain ⟨rfl, rfl, rfl, rfl⟩ := hu
        simp only [amtOf, and_self, if_true]
        omega
      · have := h.pend u h' n' todo' wake' (by simpa [put_other _ hut] using hu)
        simpa [amtOf, Ne.symm hut] using this
    · intro u
      have := h.lims u
      simpa [amtOf] using this
  | write t m =>
    simp only [RateSys.step] at hs
    split at hs
    case isFalse => cases hs
    case isTrue ht =>
    split at hs
    · cases hs
    rename_i hh n todo wake hpc
    split at hs
    case isFalse => cases hs
    case isTrue hc =>
    cases hs
    have hfold : (s.log.map fun e => if e.th = t then { e with done := true } else e) = markDone t s.log := rfl
    rw [hfold]
    refine { single := h.single, avg := h.avg, nodup := h.nodup, refs := h.refs,
             busy := ?_, prog := ?_, start := ?_, after := h.after, log := markDone_ok t h.log, woken := ?_, pend := ?_, lims := ?_ }
    · intro u hu
      by_cases hut : u = t
      · subst hut; simp [put_self] at hu
      · exact h.busy u (by simpa [put_other _ hut] using hu)
    · intro u hu
      dsimp at hu
      by_cases hm : m < n
      · rw [if_pos hm] at hu
        by_cases hut : u = t
        · subst hut; simp [put_self] at hu
        · exact h.prog u (by simpa [put_other _ hut] using hu)
      · rw [if_neg hm] at hu
        exact h.prog u hu
    · intro hne
      rw [markDone_total]
      exact h.start hne
    · intro e he
      obtain ⟨x, hx, rfl⟩ := List.mem_map.1 he
      rcases h.woken x hx with hw | ⟨h', n', todo', hp', hd'⟩
      · left; split <;> exact hw
      · by_cases hut : x.th = t
        · rw [hut, hpc] at hp'
          simp only [RPc.limiting.injEq] at hp'
          left
          rw [if_pos hut]
          dsimp
          rw [← hp'.2.2.2]
          exact hc.2.1
        · right
          rw [if_neg hut]
          exact ⟨h', n', todo', by simpa [put_other _ hut] using hp', hd'⟩
    · intro u h' n' todo' wake' hu
      by_cases hut : u = t
      · subst hut; simp [put_self] at hu
      · rw [markDone_other hut]
        exact h.pend u h' n' todo' wake' (by simpa [put_other _ hut] using hu)
    · intro u
      by_cases hut : u = t
      · subst hut
        rw [markDone_self]
        have h1 := h.lims u
        have h2 := h.pend u _ _ _ _ hpc
        simp only [put_self]
        omega
      · rw [markDone_other hut]
        simpa [put_other _ hut] using h.lims u

theorem RateInv.run {c : RateCfg} {A : ℚ} (hA : 0 < A) {es : List RateEv} : ∀ {s s' : RateSys}, RateInv c A s →
    (∀ a p b, .rates a p b ∉ es) → s.run c es = some (.ok s') → RateInv c A s' := by
  induction es with
  | nil => intro s s' h _ hr; cases hr; exact h
  | cons e es ih =>
    intro s s' h hn hr
    unfold RateSys.run at hr
    split at hr
    · cases hr
    · cases hr
    · rename_i s1 hs
      exact ih (h.step hA (fun a p b he => hn a p b (by simp [he])) hs) (fun a p b hm => hn a p b (by simp [hm])) hr

theorem RateInv.init (c : RateCfg) {thr : Thr} (h0 : thr.refs = 0) (hs : 0 < thr.single) : RateInv c thr.avg { thr := thr } where
  single := hs
  avg := rfl
  nodup := .nil
  refs := by simp [h0]
  busy := by simp
  prog := by simp
  start := by simp
  after := le_refl _
  log := trivial
  woken := by simp
  pend := by simp
  lims := by simp [amtOf]

/-- **C92** (partial: without changes of the rates, see `C92_violated_create`).  However many
transfers share a throttler with an average rate, and however their threads interleave: at every
time, what their threads wrote through it since the first of the transfers that run now started
(data, with the headers of the blocks they belong to) is at most rate times time. -/
theorem C92_rate_partial (c : RateCfg) (thr : Thr) (h0 : thr.refs = 0) (hs : 0 < thr.single) (hA : 0 < thr.avg)
    (es : List RateEv) (hr : ∀ a p b, .rates a p b ∉ es) (s : RateSys) (hrun : RateSys.run c { thr := thr } es = some (.ok s)) :
    ((∑ t ∈ Finset.range c.threads, s.lim t : Int) : ℚ) ≤ thr.avg * (s.time - s.t0) := by
  have h := (RateInv.init c h0 hs).run hA hr hrun
  have h1 : ∑ t ∈ Finset.range c.threads, s.lim t ≤ doneAmt s.log :=
    (Finset.sum_le_sum fun t _ => h.lims t).trans (sum_amtOf_le h.log.nonneg _)
  have h2 := doneAmt_bound hA h.log (T := s.time) (fun e he hd => by
    rcases h.woken e he with hw | ⟨_, _, _, _, hf⟩
    · exact hw
    · rw [hd] at hf; cases hf) h.after
  have h3 : ((∑ t ∈ Finset.range c.threads, s.lim t : Int) : ℚ) ≤ (doneAmt s.log : ℚ) := by exact_mod_cast h1
  linarith

/-! ### Headers -/

/-- A sender's block with data, or a receiver's block, whose header has at most `H` bytes. -/
inductive BlockActs (H : Int) : List RAct → Prop
  | sender (h s : Int) (rest : List Int) (f : Option Int) (h0 : 0 ≤ h) (hH : h ≤ H) (hs : ∀ n ∈ s :: rest, 0 ≤ n) :
      BlockActs H (senderActs h (s :: rest) f)
  | receiver (h first : Int) (sizes : List Int) (h0 : 0 ≤ h) (hH : h ≤ H) (hs : ∀ n ∈ first :: sizes, 0 ≤ n) :
      BlockActs H (receiverActs h first sizes)

/-- Steps after the first piece. -/
def TailActs (l : List RAct) : Prop := ∀ a ∈ l, (∃ n, a = .data 0 n ∧ 0 ≤ n) ∨ ∃ f, a = .footer f

/-- What is left of a block. -/
inductive RestActs (H : Int) : List RAct → Prop
  | tail (l) (h : TailActs l) : RestActs H l
  | first (h n l) (h0 : 0 ≤ h) (hH : h ≤ H) (hn : 0 ≤ n) (ht : TailActs l) : RestActs H (.data h n :: l)
  | all (h n l) (h0 : 0 ≤ h) (hH : h ≤ H) (hn : 0 ≤ n) (ht : TailActs l) : RestActs H (.header h :: .data h n :: l)

theorem tail_data (l : List Int) (h : ∀ n ∈ l, 0 ≤ n) : TailActs (l.map (.data 0)) := by
  intro a ha
  obtain ⟨n, hn, rfl⟩ := List.mem_map.1 ha
  exact .inl ⟨n, rfl, h n hn⟩

theorem BlockActs.rest {H : Int} {l : List RAct} (h : BlockActs H l) : RestActs H l := by
  cases h with
  | sender h s rest f h0 hH hs =>
    refine .all h s (rest.map (.data 0) ++ (match f with | none => [] | some f => [.footer f])) h0 hH (hs s (by simp)) ?_
    intro a ha
    rcases List.mem_append.1 ha with ha | ha
    · exact tail_data rest (fun n hn => hs n (by simp [hn])) a ha
    · cases f with
      | none => cases ha
      | some f => exact .inr ⟨f, by simpa using ha⟩
  | receiver h first sizes h0 hH hs =>
    exact .first h first _ h0 hH (hs first (by simp)) (tail_data sizes fun n hn => hs n (by simp [hn]))

/-- Bytes of a header that are written and not charged yet. -/
def progOwed : List RAct → Int
  | .data h _ :: _ => h
  | _ => 0

def pcOwed (pc : RPc) (prog : List RAct) : Int :=
  match pc with
  | .idle => progOwed prog
  | .limiting h _ _ _ => h

theorem TailActs.owed {l : List RAct} (h : TailActs l) : progOwed l = 0 := by
  cases l with
  | nil => rfl
  | cons a l =>
    rcases h a (by simp) with ⟨n, rfl, _⟩ | ⟨f, rfl⟩ <;> rfl

theorem TailActs.cons {a : RAct} {l : List RAct} (h : TailActs (a :: l)) : TailActs l := fun x hx => h x (by simp [hx])

theorem RestActs.owed {H : Int} (hH : 0 ≤ H) {l : List RAct} (h : RestActs H l) : 0 ≤ progOwed l ∧ progOwed l ≤ H := by
  cases h with
  | tail _ h => rw [h.owed]; omega
  | first => simp only [progOwed]; omega
  | all => simp only [progOwed]; omega

structure HdrInv (H : Int) (s : RateSys) : Prop where
  rest : ∀ t, s.pc t = .idle → RestActs H (s.prog t)
  mid : ∀ t h n todo wake, s.pc t = .limiting h n todo wake → 0 ≤ h ∧ h ≤ H ∧ 0 ≤ n ∧ TailActs (s.prog t)
  paid : ∀ t, s.hdr t + s.data t ≤ s.lim t + H * s.drops t + pcOwed (s.pc t) (s.prog t)
  drops : ∀ t, 0 ≤ s.drops t

theorem nil_rest (H : Int) : RestActs H [] := .tail _ (by intro a ha; cases ha)

theorem HdrInv.step {c : RateCfg} {A : ℚ} {H : Int} (hH : 0 ≤ H) {s s' : RateSys} (hi : RateInv c A s) (h : HdrInv H s) {e : RateEv}
    (he : ∀ a p b, e ≠ .rates a p b) (hg : ∀ t acts, e = .take t acts → BlockActs H acts)
    (hs : s.step c e = some (.ok s')) : HdrInv H s' := by
  cases e with
  | rates a p b => exact absurd rfl (he a p b)
  | tick d =>
    simp only [RateSys.step] at hs
    split at hs
    · cases hs
      exact ⟨h.rest, h.mid, h.paid, h.drops⟩
    · cases hs
  | start i =>
    simp only [RateSys.step] at hs
    split at hs
    case isFalse => cases hs
    case isTrue hn =>
    cases hs
    unfold RateSys.begin
    simp only [List.length_cons, Nat.add_eq_right, List.length_eq_zero_iff]
    split
    case isTrue hr =>
      refine ⟨h.rest, h.mid, ?_, fun _ => le_refl _⟩
      intro t
      have hidle : s.pc t = .idle := by
        by_contra hp
        have := (hi.busy t hp).2
        simp [hr] at this
      have hprog : s.prog t = [] := by
        by_contra hp
        have := (hi.prog t hp).2
        simp [hr] at this
      simp [hidle, hprog, pcOwed, progOwed]
    case isFalse => exact ⟨h.rest, h.mid, h.paid, h.drops⟩
  | stop i =>
    simp only [RateSys.step] at hs
    split at hs
    case isFalse => cases hs
    case isTrue hc =>
    split at hs
    case h_2 => cases hs
    cases hs
    exact ⟨h.rest, h.mid, h.paid, h.drops⟩
  | take t acts =>
    simp only [RateSys.step] at hs
    split at hs
    case isFalse => cases hs
    case isTrue hc =>
    cases hs
    have hb := (hg t acts rfl)
    refine ⟨?_, ?_, ?_, h.drops⟩
    · intro u hu
      by_cases hut : u = t
      · subst hut; dsimp only; rw [put_self]; exact hb.rest
      · dsimp only; rw [put_other _ hut]; exact h.rest u hu
    · intro u h' n todo wake hu
      by_cases hut : u = t
      · subst hut; dsimp at hu; rw [hc.2.2.1] at hu; cases hu
      · dsimp only; rw [put_other _ hut]; exact h.mid u h' n todo wake hu
    · intro u
      have hp := h.paid u
      by_cases hut : u = t
      · subst hut
        rw [hc.2.2.1, hc.2.2.2] at hp
        dsimp
        rw [put_self, hc.2.2.1]
        have := (hb.rest.owed hH).1
        simp only [pcOwed] at hp ⊢
        simp only [progOwed] at hp
        omega
      · dsimp; rw [put_other _ hut]; exact hp
  | drop t =>
    simp only [RateSys.step] at hs
    split at hs
    case isFalse => cases hs
    case isTrue hc =>
    cases hs
    refine ⟨?_, ?_, ?_, ?_⟩
    · intro u hu
      by_cases hut : u = t
      · subst hut; dsimp only; rw [put_self]; exact nil_rest H
      · dsimp only; rw [put_other _ hut]; exact h.rest u hu
    · intro u h' n todo wake hu
      by_cases hut : u = t
      · subst hut; dsimp at hu; rw [hc.2.1] at hu; cases hu
      · dsimp only; rw [put_other _ hut]; exact h.mid u h' n todo wake hu
    · intro u
      have hp := h.paid u
      by_cases hut : u = t
      · subst hut
        dsimp
        rw [put_self, put_self, hc.2.1]
        rw [hc.2.1] at hp
        have := ((h.rest u hc.2.1).owed hH).2
        simp only [pcOwed] at hp ⊢
        simp only [progOwed]
        rw [mul_add, mul_one]
        omega
      · dsimp; rw [put_other _ hut, put_other _ hut]; exact hp
    · intro u
      have := h.drops u
      by_cases hut : u = t
      · subst hut; dsimp; rw [put_self]; omega
      · dsimp; rw [put_other _ hut]; exact this
  | act t =>
    simp only [RateSys.step] at hs
    split at hs
    case isFalse => cases hs
    case isTrue hc =>
    have hrest := h.rest t hc.2.2
    have hp := h.paid t
    rw [hc.2.2] at hp
    simp only [pcOwed] at hp
    split at hs
    · cases hs
    · rename_i h1 r hpr
      cases hs
      rw [hpr] at hrest hp
      obtain ⟨n, l, hr, h0, hh, hn, ht⟩ : ∃ n l, r = .data h1 n :: l ∧ 0 ≤ h1 ∧ h1 ≤ H ∧ 0 ≤ n ∧ TailActs l := by
        cases hrest with
        | tail _ ht => rcases ht _ (List.mem_cons_self) with ⟨n, hn, _⟩ | ⟨f, hf⟩ <;> contradiction
        | all _ n l h0 hH hn ht => exact ⟨n, l, rfl, h0, hH, hn, ht⟩
      subst hr
      refine ⟨?_, ?_, ?_, h.drops⟩
      · intro u hu
        by_cases hut : u = t
        · subst hut; dsimp only; rw [put_self]; exact .first _ _ _ h0 hh hn ht
        · dsimp only; rw [put_other _ hut]; exact h.rest u hu
      · intro u h' n' todo wake hu
        by_cases hut : u = t
        · subst hut; dsimp at hu; rw [hc.2.2] at hu; cases hu
        · dsimp only; rw [put_other _ hut]; exact h.mid u h' n' todo wake hu
      · intro u
        by_cases hut : u = t
        · subst hut
          dsimp
          rw [put_self, put_self, hc.2.2]
          simp only [pcOwed, progOwed] at hp ⊢
          omega
        · dsimp; rw [put_other _ hut, put_other _ hut]; exact h.paid u
    · rename_i f r hpr
      cases hs
      rw [hpr] at hrest hp
      have ht : TailActs r := by
        cases hrest with
        | tail _ ht => exact ht.cons
      refine ⟨?_, ?_, ?_, h.drops⟩
      · intro u hu
        by_cases hut : u = t
        · subst hut; dsimp only; rw [put_self]; exact .tail _ ht
        · dsimp only; rw [put_other _ hut]; exact h.rest u hu
      · intro u h' n' todo wake hu
        by_cases hut : u = t
        · subst hut; dsimp at hu; rw [hc.2.2] at hu; cases hu
        · dsimp only; rw [put_other _ hut]; exact h.mid u h' n' todo wake hu
      · intro u
        by_cases hut : u = t
        · subst hut
          dsimp
          rw [put_self, hc.2.2]
          simp only [pcOwed, ht.owed]
          simp only [progOwed] at hp
          omega
        · dsimp; rw [put_other _ hut]; exact h.paid u
    · rename_i h1 n r hpr
      cases hs
      rw [hpr] at hrest hp
      obtain ⟨h0, hh, hn, ht⟩ : 0 ≤ h1 ∧ h1 ≤ H ∧ 0 ≤ n ∧ TailActs r := by
        cases hrest with
        | tail _ ht =>
          rcases ht _ (List.mem_cons_self) with ⟨m, hm, hm0⟩ | ⟨f, hf⟩
          · cases hm; exact ⟨le_refl _, hH, hm0, ht.cons⟩
          · contradiction
        | first _ _ _ h0 hH hn ht => exact ⟨h0, hH, hn, ht⟩
      refine ⟨?_, ?_, ?_, h.drops⟩
      · intro u hu
        by_cases hut : u = t
        · subst hut; dsimp at hu; rw [put_self] at hu; cases hu
        · dsimp at hu; rw [put_other _ hut] at hu; dsimp only; rw [put_other _ hut]; exact h.rest u hu
      · intro u h' n' todo wake hu
        by_cases hut : u = t
        · subst hut
          dsimp at hu
          rw [put_self] at hu
          cases hu
          dsimp only
          rw [put_self]
          exact ⟨h0, hh, hn, ht⟩
        · dsimp at hu; rw [put_other _ hut] at hu; dsimp only; rw [put_other _ hut]; exact h.mid u h' n' todo wake hu
      · intro u
        by_cases hut : u = t
        · subst hut
          dsimp
          rw [put_self, put_self]
          simpa only [pcOwed, progOwed] using hp
        · dsimp; rw [put_other _ hut, put_other _ hut]; exact h.paid u
  | charge t now =>
    simp only [RateSys.step] at hs
    split at hs
    case isFalse => cases hs
    case isTrue ht =>
    split at hs
    · cases hs
    rename_i hh n todo wake hpc
    split at hs
    case isFalse => cases hs
    case isTrue hc =>
    cases hs
    refine ⟨?_, ?_, ?_, h.drops⟩
    · intro u hu
      by_cases hut : u = t
      · subst hut; dsimp at hu; rw [put_self] at hu; cases hu
      · dsimp at hu; rw [put_other _ hut] at hu; exact h.rest u hu
    · intro u h' n' todo' wake' hu
      by_cases hut : u = t
      · subst hut
        dsimp at hu
        rw [put_self] at hu
        cases hu
        exact h.mid u _ _ _ _ hpc
      · dsimp at hu; rw [put_other _ hut] at hu; exact h.mid u h' n' todo' wake' hu
    · intro u
      have hp := h.paid u
      by_cases hut : u = t
      · subst hut
        dsimp
        rw [put_self]
        rw [hpc] at hp
        exact hp
      · dsimp; rw [put_other _ hut]; exact hp
  | write t m =>
    simp only [RateSys.step] at hs
    split at hs
    case isFalse => cases hs
    case isTrue ht =>
    split at hs
    · cases hs
    rename_i hh n todo wake hpc
    split at hs
    case isFalse => cases hs
    case isTrue hc =>
    cases hs
    obtain ⟨m1, m2, m3, m4⟩ := h.mid t _ _ _ _ hpc
    have htail : TailActs ((if m < n then put s.prog t [] else s.prog) t) := by
      split
      · rw [put_self]; intro a ha; cases ha
      · exact m4
    have hother : ∀ u, u ≠ t → (if m < n then put s.prog t [] else s.prog) u = s.prog u := by
      intro u hut
      split
      · rw [put_other _ hut]
      · rfl
    refine ⟨?_, ?_, ?_, h.drops⟩
    · intro u hu
      by_cases hut : u = t
      · subst hut; exact .tail _ htail
      · dsimp at hu ⊢; rw [put_other _ hut] at hu; rw [hother u hut]; exact h.rest u hu
    · intro u h' n' todo' wake' hu
      by_cases hut : u = t
      · subst hut; dsimp at hu; rw [put_self] at hu; cases hu
      · dsimp at hu ⊢; rw [put_other _ hut] at hu; rw [hother u hut]; exact h.mid u h' n' todo' wake' hu
    · intro u
      have hp := h.paid u
      by_cases hut : u = t
      · subst hut
        dsimp
        rw [put_self, put_self, put_self]
        rw [hpc] at hp
        simp only [pcOwed] at hp ⊢
        rw [htail.owed]
        omega
      · dsimp; rw [put_other _ hut, put_other _ hut, put_other _ hut, hother u hut]; exact hp

theorem hdr_run {c : RateCfg} {A : ℚ} (hA : 0 < A) {H : Int} (hH : 0 ≤ H) {es : List RateEv} : ∀ {s s' : RateSys}, RateInv c A s →
    HdrInv H s → (∀ a p b, .rates a p b ∉ es) → (∀ t acts, .take t acts ∈ es → BlockActs H acts) →
    s.run c es = some (.ok s') → HdrInv H s' := by
  induction es with
  | nil => intro s s' _ h _ _ hr; cases hr; exact h
  | cons e es ih =>
    intro s s' hi h hn hg hr
    unfold RateSys.run at hr
    split at hr
    · cases hr
    · cases hr
    · rename_i s1 hs
      have hne : ∀ a p b, e ≠ .rates a p b := fun a p b he => hn a p b (by simp [he])
      exact ih (hi.step hA hne hs) (h.step hH hi hne (fun t acts he => hg t acts (by simp [he])) hs)
        (fun a p b hm => hn a p b (by simp [hm])) (fun t acts hm => hg t acts (by simp [hm])) hr

/-- **C92** (partial: without changes of the rates, see `C92_violated_create`, and without empty
blocks, see `C92_violated_empty`).  At every time, the bytes of headers and data that all
threads wrote are at most rate times time, and one header for each thread and each block that
was given up. -/
theorem C92_sent_partial (c : RateCfg) (thr : Thr) (h0 : thr.refs = 0) (hs : 0 < thr.single) (hA : 0 < thr.avg) (H : Int) (hH : 0 ≤ H)
    (es : List RateEv) (hr : ∀ a p b, .rates a p b ∉ es) (hg : ∀ t acts, .take t acts ∈ es → BlockActs H acts)
    (s : RateSys) (hrun : RateSys.run c { thr := thr } es = some (.ok s)) :
    ((∑ t ∈ Finset.range c.threads, (s.hdr t + s.data t) : Int) : ℚ) ≤
      thr.avg * (s.time - s.t0) + (∑ t ∈ Finset.range c.threads, H * (1 + s.drops t) : Int) := by
  have h1 := C92_rate_partial c thr h0 hs hA es hr s hrun
  have hinit : HdrInv H ({ thr := thr } : RateSys) :=
    ⟨fun _ _ => nil_rest H, by simp, fun t => by simp [pcOwed, progOwed], fun _ => le_refl _⟩
  have h2 := hdr_run hA hH (RateInv.init c h0 hs) hinit hr hg hrun
  have h3 : ∑ t ∈ Finset.range c.threads, (s.hdr t + s.data t) ≤
      ∑ t ∈ Finset.range c.threads, (s.lim t + H * (1 + s.drops t)) := by
    refine Finset.sum_le_sum fun t _ => ?_
    have hp := h2.paid t
    have ho : pcOwed (s.pc t) (s.prog t) ≤ H := by
      cases hpc : s.pc t with
      | idle => exact ((h2.rest t hpc).owed hH).2
      | limiting h n todo wake => exact (h2.mid t _ _ _ _ hpc).2.1
    rw [mul_add, mul_one]
    omega
  rw [Finset.sum_add_distrib (f := s.lim)] at h3
  have h4 : ((∑ t ∈ Finset.range c.threads, (s.hdr t + s.data t) : Int) : ℚ) ≤
      ((∑ t ∈ Finset.range c.threads, s.lim t + ∑ t ∈ Finset.range c.threads, H * (1 + s.drops t) : Int) : ℚ) :=
    Int.cast_le.2 h3
  push_cast at h4 h1 ⊢
  linarith

/-! ### Registration -/

/-- Invariant of all executions. -/
structure RegInv (c : RateCfg) (s : RateSys) : Prop where
  refs : s.thr.refs = s.running.length
  busy : ∀ t, s.pc t ≠ .idle → t < c.threads ∧ c.own t ∈ s.running

theorem RegInv.step {c : RateCfg} {s : RateSys} (h : RegInv c s) {e : RateEv} {r : Except Fault RateSys}
    (hs : s.step c e = some r) : ∃ s', r = .ok s' ∧ RegInv c s' := by
  cases e with
  | rates a p b => cases hs; exact ⟨_, rfl, h.refs, h.busy⟩
  | tick d =>
    simp only [RateSys.step] at hs
    split at hs
    · cases hs; exact ⟨_, rfl, h.refs, h.busy⟩
    · cases hs
  | start i =>
    simp only [RateSys.step] at hs
    split at hs
    case isFalse => cases hs
    cases hs
    refine ⟨_, rfl, ?_, ?_⟩
    · have : (s.thr.startTransfer s.time).refs = s.thr.refs + 1 := by
        unfold Thr.startTransfer
        simp only
        split <;> simp [Thr.reset]
      unfold RateSys.begin
      simp only
      split <;> simp [this, h.refs]
    · intro t ht
      have : (s.begin i).pc = s.pc ∧ (s.begin i).running = i :: s.running := by
        unfold RateSys.begin
        simp only
        split <;> simp
      rw [this.1] at ht
      rw [this.2]
      exact ⟨(h.busy t ht).1, List.mem_cons_of_mem _ (h.busy t ht).2⟩
  | stop i =>
    simp only [RateSys.step] at hs
    split at hs
    case isFalse => cases hs
    case isTrue hi =>
    have hpos : s.thr.refs > 0 := by
      rw [h.refs]
      have := List.length_pos_of_mem hi.1
      omega
    unfold Thr.endTransfer at hs
    rw [if_pos hpos] at hs
    cases hs
    refine ⟨_, rfl, ?_, ?_⟩
    · simp only [h.refs, List.length_erase_of_mem hi.1]
      have := List.length_pos_of_mem hi.1
      omega
    · intro t ht
      have hb := h.busy t ht
      have hne : c.own t ≠ i := fun ho => ht (hi.2 t hb.1 ho).1
      exact ⟨hb.1, (List.mem_erase_of_ne hne).2 hb.2⟩
  | take t acts =>
    simp only [RateSys.step] at hs
    split at hs
    · cases hs; exact ⟨_, rfl, h.refs, h.busy⟩
    · cases hs
  | drop t =>
    simp only [RateSys.step] at hs
    split at hs
    · cases hs; exact ⟨_, rfl, h.refs, h.busy⟩
    · cases hs
  | act t =>
    simp only [RateSys.step] at hs
    split at hs
    case isFalse => cases hs
    case isTrue hc =>
    split at hs
    · cases hs
    · cases hs; exact ⟨_, rfl, h.refs, h.busy⟩
    · cases hs; exact ⟨_, rfl, h.refs, h.busy⟩
    · cases hs
      refine ⟨_, rfl, h.refs, fun u hu => ?_⟩
      by_cases hut : u = t
      · subst hut; exact ⟨hc.1, hc.2.1⟩
      · exact h.busy u (by simpa [put_other _ hut] using hu)
  | charge t now =>
    simp only [RateSys.step] at hs
    split at hs
    case isFalse => cases hs
    split at hs
    · cases hs
    rename_i hpc
    split at hs
    case isFalse => cases hs
    cases hs
    refine ⟨_, rfl, ?_, fun u hu => ?_⟩
    · exact (rate_calc_keep _ _ _).2.1.trans h.refs
    · by_cases hut : u = t
      · subst hut; exact h.busy u (by simp [hpc])
      · exact h.busy u (by simpa [put_other _ hut] using hu)
  | write t m =>
    simp only [RateSys.step] at hs
    split at hs
    case isFalse => cases hs
    split at hs
    · cases hs
    split at hs
    case isFalse => cases hs
    cases hs
    refine ⟨_, rfl, h.refs, fun u hu => ?_⟩
    by_cases hut : u = t
    · subst hut; simp [put_self] at hu
    · exact h.busy u (by simpa [put_other _ hut] using hu)

theorem RegInv.run {c : RateCfg} {es : List RateEv} : ∀ {s : RateSys} {r : Except Fault RateSys}, RegInv c s →
    s.run c es = some r → ∃ s', r = .ok s' ∧ RegInv c s' := by
  induction es with
  | nil => intro s r h hr; cases hr; exact ⟨s, rfl, h⟩
  | cons e es ih =>
    intro s r h hr
    unfold RateSys.run at hr
    cases he : s.step c e with
    | none => rw [he] at hr; cases hr
    | some q =>
      obtain ⟨s1, rfl, h1⟩ := h.step he
      rw [he] at hr
      exact ih h1 hr

/-- **C92.**  Transfers register and deregister without the throttler's check failing; a thread that asks the throttler
is never let through because its transfer is not registered; when no transfer runs, none is registered. -/
theorem C92_registered (c : RateCfg) (thr : Thr) (h0 : thr.refs = 0) (es : List RateEv) (r : Except Fault RateSys)
    (hrun : RateSys.run c { thr := thr } es = some r) :
    ∃ s, r = .ok s ∧ (∀ t h n todo wake, s.pc t = .limiting h n todo wake → 0 < s.thr.refs) ∧
      (s.running = [] → s.thr.refs = 0) := by
  obtain ⟨s, rfl, h⟩ := RegInv.run (s := { thr := thr }) ⟨by simp [h0], by simp⟩ hrun
  refine ⟨s, rfl, fun t h' n todo wake ht => ?_, fun he => by rw [h.refs, he]; rfl⟩
  rw [h.refs]
  have := List.length_pos_of_mem (h.busy t (by simp [ht])).2
  omega

/-! ### What does not hold -/

/-- A throttler for `avg` bytes per second without a limit on bursts. -/
def plainThr (avg : ℚ) : Thr := { avg := avg, rate := -1, limit := 0, single := 1000 }

/-- Sending `k` empty files. -/
def emptyFiles : Nat → List RateEv
  | 0 => []
  | k + 1 => .take 0 (senderActs 20 [] none) :: .act 0 :: emptyFiles k

theorem emptyFiles_run (k : Nat) : ∀ s : RateSys, s.running = [0] → s.pc 0 = .idle → s.prog 0 = [] →
    ∃ s', s.run ⟨1, fun _ => 0⟩ (emptyFiles k) = some (.ok s') ∧ s'.time = s.time ∧ s'.t0 = s.t0 ∧ s'.hdr 0 = s.hdr 0 + 20 * k ∧
      s'.data 0 = s.data 0 ∧ s'.drops 0 = s.drops 0 := by
  induction k with
  | zero => intro s _ _ _; exact ⟨s, rfl, rfl, rfl, by simp, rfl, rfl⟩
  | succ k ih =>
    intro s hr hp hq
    obtain ⟨s', h1, h2, h3, h4, h5, h6⟩ := ih { s with prog := put (put s.prog 0 [.header 20]) 0 [], hdr := put s.hdr 0 (s.hdr 0 + 20) }
      hr hp (by simp [put])
    refine ⟨s', ?_, h2, h3, ?_, h5, h6⟩
    · have e1 : s.step ⟨1, fun _ => 0⟩ (.take 0 (senderActs 20 [] none)) = some (.ok { s with prog := put s.prog 0 [.header 20] }) := by
        simp only [RateSys.step]
        rw [if_pos ⟨by decide, by rw [hr]; decide, hp, hq⟩]
        rfl
      have e2 : ({ s with prog := put s.prog 0 [.header 20] } : RateSys).step ⟨1, fun _ => 0⟩ (.act 0) =
          some (.ok { s with prog := put (put s.prog 0 [.header 20]) 0 [], hdr := put s.hdr 0 (s.hdr 0 + 20) }) := by
        simp only [RateSys.step]
        rw [if_pos ⟨by decide, by rw [hr]; decide, hp⟩]
        rw [put_self]
      unfold emptyFiles
      rw [RateSys.run, e1]
      dsimp only
      rw [RateSys.run, e2]
      exact h1
    · rw [h4]
      dsimp only
      rw [put_self]; push_cast; ring

theorem emptyFiles_plain (k : Nat) (a p b : ℚ) : RateEv.rates a p b ∉ emptyFiles k := by
  induction k with
  | zero => exact fun hm => by cases hm
  | succ k ih =>
    intro hm
    rcases List.mem_cons.1 hm with hm | hm
    · cases hm
    · rcases List.mem_cons.1 hm with hm | hm
      · cases hm
      · exact ih hm

/-- **C92 is violated** by a sender of empty files, whose headers are not charged: with a rate of one byte per
second, `20 * k` bytes are sent in no time, for every `k`. -/
theorem C92_violated_empty (k : Nat) : ∃ es s, (∀ a p b, RateEv.rates a p b ∉ es) ∧
    RateSys.run ⟨1, fun _ => 0⟩ { thr := plainThr 1 } es = some (.ok s) ∧ s.time = s.t0 ∧ s.hdr 0 + s.data 0 = 20 * k ∧ s.drops 0 = 0 := by
  obtain ⟨s, h1, h2, h3, h4, h5, h6⟩ := emptyFiles_run k (({ thr := plainThr 1 } : RateSys).begin 0) rfl rfl rfl
  refine ⟨.start 0 :: emptyFiles k, s, ?_, ?_, ?_, ?_, h6⟩
  · intro a p b hm
    rcases List.mem_cons.1 hm with hm | hm
    · cases hm
    · exact emptyFiles_plain k a p b hm
  · exact h1
  · rw [h2, h3]; rfl
  · rw [h4, h5]
    have : (({ thr := plainThr 1 } : RateSys).begin 0).hdr 0 = 0 ∧ (({ thr := plainThr 1 } : RateSys).begin 0).data 0 = 0 := ⟨rfl, rfl⟩
    rw [this.1, this.2]; ring

/-- Checking a concrete execution. -/
def endsWith (f : RateSys → Bool) (r : Option (Except Fault RateSys)) : Bool :=
  match r with
  | some (.ok s) => f s
  | _ => false

theorem endsWith_ok {f : RateSys → Bool} {r : Option (Except Fault RateSys)} (h : endsWith f r = true) :
    ∃ s, r = some (.ok s) ∧ f s = true := by
  match r, h with
  | some (.ok s), h => exact ⟨s, rfl, h⟩

/-- **C92 is violated** when a sender or receiver is created while transfers run, because that sets the
rates again and forgets what was charged: at 10 bytes per second two transfers send 200 bytes
in 10 seconds. -/
theorem C92_violated_create : ∃ s, RateSys.run ⟨2, id⟩ { thr := plainThr 10 }
    [.start 0, .take 0 (senderActs 10 [90] none), .act 0, .act 0, .charge 0 0, .rates 10 (-1) 0,
     .start 1, .take 1 (senderActs 10 [90] none), .act 1, .act 1, .charge 1 0, .tick 10, .write 0 90, .write 1 90] = some (.ok s) ∧
    s.hdr 0 + s.data 0 + (s.hdr 1 + s.data 1) = 200 ∧ s.time - s.t0 = 10 := by
  obtain ⟨s, h1, h2⟩ := endsWith_ok (f := fun s => decide (s.hdr 0 + s.data 0 + (s.hdr 1 + s.data 1) = 200 ∧ s.time - s.t0 = 10))
    (r := RateSys.run ⟨2, id⟩ { thr := plainThr 10 }
    [.start 0, .take 0 (senderActs 10 [90] none), .act 0, .act 0, .charge 0 0, .rates 10 (-1) 0,
     .start 1, .take 1 (senderActs 10 [90] none), .act 1, .act 1, .charge 1 0, .tick 10, .write 0 90, .write 1 90]) (by decide +kernel)
  exact ⟨s, h1, of_decide_eq_true h2⟩

/-- The hypotheses of `C92_sent_partial` are met: two transfers of a sender and a receiver, the
second thread sleeps in several requests, one block is given up. -/
example : endsWith (fun s => decide (s.hdr 0 + s.data 0 + (s.hdr 1 + s.data 1) = 130 ∧ s.time - s.t0 = 14))
    (RateSys.run ⟨2, id⟩ { thr := { avg := 10, rate := -1, limit := 0, single := 50 } }
    [.start 0, .take 0 (senderActs 10 [60, 30] (some 6)), .act 0, .act 0, .start 1, .take 1 (receiverActs 10 20 [40]), .act 1,
     .charge 1 0, .charge 0 0, .tick 9, .charge 0 9, .tick 1, .write 1 20, .write 0 60, .drop 0, .stop 0, .act 1, .charge 1 10, .tick 4,
     .write 1 40]) = true := by decide +kernel

example : BlockActs 10 (senderActs 10 [60, 30] (some 6)) := .sender 10 60 [30] (some 6) (by decide) (by decide) (by decide)
example : BlockActs 10 (receiverActs 10 20 [40]) := .receiver 10 20 [40] (by decide) (by decide) (by decide)

end Wdt
