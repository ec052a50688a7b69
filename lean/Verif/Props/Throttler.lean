import Verif.Model.Throttler
import Mathlib.Tactic.Linarith
import Mathlib.Tactic.FieldSimp
import Mathlib.Tactic.NormNum
/-
C40, C41: the throttler.
-/
namespace Wdt

/-- Total of the charges in a history. -/
def charged : List TEv → ℚ
  | [] => 0
  | .charge d _ :: es => d + charged es
  | _ :: es => charged es

/-- Number of charges in a history. -/
def numCharges : List TEv → Nat
  | [] => 0
  | .charge _ _ :: es => numCharges es + 1
  | _ :: es => numCharges es

/-- Starts minus ends of transfers. -/
def netStarts : List TEv → Int
  | [] => 0
  | .start _ :: es => netStarts es + 1
  | .stop :: es => netStarts es - 1
  | _ :: es => netStarts es

/-- The rates are not changed, and the transfer that was registered at the beginning of
the history stays registered: never more ends than starts. -/
def Busy (es : List TEv) : Prop := (∀ p, p <+: es → 0 ≤ netStarts p) ∧ ∀ a p b now, .setRates a p b now ∉ es

theorem netStarts_append (a b : List TEv) : netStarts (a ++ b) = netStarts a + netStarts b := by
  induction a with
  | nil => simp [netStarts]
  | cons e a ih => cases e <;> simp only [List.cons_append, netStarts, ih] <;> omega

theorem charged_append (a b : List TEv) : charged (a ++ b) = charged a + charged b := by
  induction a with
  | nil => simp [charged]
  | cons e a ih => cases e <;> simp only [List.cons_append, charged, ih] <;> ring

/-- Fields that a charge keeps. -/
theorem calc_keep (t : Thr) (d : Int) (now : ℚ) :
    let t' := (t.calculateSleep d now).1
    t'.start = t.start ∧ t'.refs = t.refs ∧ t'.avg = t.avg ∧ t'.rate = t.rate ∧ t'.limit = t.limit ∧ t'.single = t.single := by
  unfold Thr.calculateSleep
  simp only
  split
  · simp
  · split
    · simp
    · split
      · unfold Thr.useBucket
        simp only
        (repeat' split) <;> simp
      · simp

theorem calc_progress (t : Thr) (d : Int) (now : ℚ) (h : 0 < t.refs) :
    (t.calculateSleep d now).1.progress = t.progress + d := by
  unfold Thr.calculateSleep
  rw [if_neg (by omega)]
  simp only
  split
  · rfl
  · split
    · unfold Thr.useBucket
      simp only
      (repeat' split) <;> rfl
    · rfl

/-- What a busy history does to the state. -/
theorem run_keep {t t' : Thr} {es : List TEv} (h : t.run es = .ok t') (hr : 0 < t.refs)
    (hb : ∀ p, p <+: es → 0 < t.refs + netStarts p) (hs : ∀ a p b now, .setRates a p b now ∉ es) :
    t'.start = t.start ∧ t'.avg = t.avg ∧ t'.rate = t.rate ∧ t'.limit = t.limit ∧ 0 < t'.refs ∧
    t'.progress = t.progress + charged es := by
  induction es generalizing t with
  | nil => cases h; simp [charged, hr]
  | cons e es ih =>
    unfold Thr.run at h
    split at h
    · cases h
    · rename_i t1 h1
      have hpre : ∀ p, p <+: es → (e :: p) <+: e :: es := fun p hp => by simpa using hp
      have h0 := hb [e] ⟨es, rfl⟩
      cases e with
      | charge d now =>
        simp only [Thr.step] at h1
        split at h1
        · cases h1
        · cases h1
          obtain ⟨k1, k2, k3, k4, k5, k6⟩ := calc_keep t d now
          have := ih h (by rw [k2]; exact hr) (fun p hp => by
            have := hb _ (hpre p hp); simp only [netStarts] at this; rw [k2]; exact this) fun a p b n hm => hs a p b n (by simp [hm])
          obtain ⟨a1, a2, a3, a4, a5, a6⟩ := this
          refine ⟨a1.trans k1, a2.trans k3, a3.trans k4, a4.trans k5, a5, ?_⟩
          rw [a6, calc_progress t d now hr, charged]; ring
      | start now =>
        simp only [Thr.step] at h1
        cases h1
        have e0 : t.startTransfer now = { t with refs := t.refs + 1 } := by
          unfold Thr.startTransfer; rw [if_neg (by omega)]
        rw [e0] at h
        have := ih h (by simp only; omega) (fun p hp => by
            have := hb _ (hpre p hp); simp only [netStarts] at this ⊢; omega) fun a p b n hm => hs a p b n (by simp [hm])
        simpa only [charged] using this
      | stop =>
        simp only [Thr.step, Thr.endTransfer] at h1
        rw [if_pos hr] at h1
        · cases h1
          simp only [netStarts] at h0
          have := ih h (by simp only; omega) (fun p hp => by
            have := hb _ (hpre p hp); simp only [netStarts] at this ⊢; omega) fun a p b n hm => hs a p b n (by simp [hm])
          simpa only [charged] using this
      | setRates a p b now => exact absurd (by simp) (hs a p b now)

/-- The state right after the counting starts at time `t0`: a transfer is started on a
throttler nobody uses, or the rates of one in use are set. -/
inductive CountFrom (t0 : ℚ) : Thr → Prop where
  | start (t : Thr) (h : t.refs = 0) : CountFrom t0 (t.startTransfer t0)
  | setRates (t : Thr) (h : 0 < t.refs) (a p b : ℚ) : CountFrom t0 (t.setRates a p b t0)

theorem CountFrom.spec {t0 : ℚ} {t : Thr} (h : CountFrom t0 t) : t.start = t0 ∧ t.progress = 0 ∧ 0 < t.refs := by
  cases h with
  | start t h => simp [Thr.startTransfer, h, Thr.reset]
  | setRates t h a p b => exact ⟨rfl, rfl, h⟩

/-- **C40.**  With an average rate set, whenever a caller of the throttler continues, all
that was charged up to and including its call, by any number of threads, is at most the
average rate times the time since counting started. -/
theorem C40_average (t0 : ℚ) (s0 : Thr) (h0 : CountFrom t0 s0) (hA : 0 < s0.avg) (es : List TEv) (hb : Busy es)
    (s : Thr) (hrun : s0.run es = .ok s) (d : Int) (now : ℚ) :
    charged (es ++ [.charge d now]) ≤ s0.avg * (s.resume d now - t0) := by
  obtain ⟨e1, e2, e3⟩ := h0.spec
  obtain ⟨k1, k2, k3, k4, k5, k6⟩ := run_keep hrun e3 (fun p hp => by have := hb.1 p hp; omega) hb.2
  have hc : charged (es ++ [.charge d now]) = s.progress + d := by
    rw [charged_append, k6, e2]; simp [charged]
  rw [hc]
  have havg : s.avg > 0 := by rw [k2]; exact hA
  unfold Thr.resume Thr.calculateSleep
  rw [if_neg (by omega)]
  have hav : ({ s with progress := s.progress + d } : Thr).averageThrottler now =
      if s.progress + d > s.avg * (now - s.start) then (s.progress + d) / s.avg - (now - s.start) else -1 := by
    simp only [Thr.averageThrottler]
    rw [if_neg (by linarith)]
  simp only [hav]
  by_cases hp : s.progress + d > s.avg * (now - s.start)
  · rw [if_pos hp]
    have hpos : (s.progress + d) / s.avg - (now - s.start) > 0 := by
      have : (now - s.start) < (s.progress + d) / s.avg := by
        rw [lt_div_iff₀ havg]; linarith
      linarith
    rw [if_pos hpos]
    simp only
    rw [max_eq_right (le_of_lt hpos), k1, e1, ← k2]
    have : s.avg * (now + ((s.progress + d) / s.avg - (now - t0)) - t0) = s.progress + d := by
      field_simp; ring
    rw [this]
  · rw [if_neg hp]
    rw [if_neg (by norm_num)]
    have h1 : s.progress + d ≤ s.avg * (now - t0) := by rw [← e1, ← k1]; exact not_lt.1 hp
    rw [← k2]
    refine le_trans h1 ?_
    have : ∀ x : ℚ, s.avg * (now - t0) ≤ s.avg * (now + max 0 x - t0) := by
      intro x
      apply mul_le_mul_of_nonneg_left _ (le_of_lt havg)
      have := le_max_left (0 : ℚ) x
      linarith
    exact this _

/-- **C40 (no needless delay).**  If the throttler makes a caller wait because of the
average rate, the caller waits exactly until the average rate is met; otherwise, without a
peak rate, it does not wait at all. -/
theorem C40_exact (t0 : ℚ) (s0 : Thr) (h0 : CountFrom t0 s0) (hA : 0 < s0.avg) (hP : s0.rate ≤ 0) (es : List TEv)
    (hb : Busy es) (s : Thr) (hrun : s0.run es = .ok s) (d : Int) (now : ℚ) :
    s.resume d now = max now (t0 + charged (es ++ [.charge d now]) / s0.avg) := by
  obtain ⟨e1, e2, e3⟩ := h0.spec
  obtain ⟨k1, k2, k3, k4, k5, k6⟩ := run_keep hrun e3 (fun p hp => by have := hb.1 p hp; omega) hb.2
  have hc : charged (es ++ [.charge d now]) = s.progress + d := by
    rw [charged_append, k6, e2]; simp [charged]
  rw [hc]
  have havg : s.avg > 0 := by rw [k2]; exact hA
  unfold Thr.resume Thr.calculateSleep
  rw [if_neg (by omega)]
  have hav : ({ s with progress := s.progress + d } : Thr).averageThrottler now =
      if s.progress + d > s.avg * (now - s.start) then (s.progress + d) / s.avg - (now - s.start) else -1 := by
    simp only [Thr.averageThrottler]
    rw [if_neg (by linarith)]
  simp only [hav]
  by_cases hp : s.progress + d > s.avg * (now - s.start)
  · rw [if_pos hp]
    have hlt : (now - s.start) < (s.progress + d) / s.avg := by
      rw [lt_div_iff₀ havg]; linarith
    rw [if_pos (by linarith)]
    simp only
    rw [max_eq_right (by linarith), ← k2, ← e1, ← k1, max_eq_right (by linarith)]
    ring
  · rw [if_neg hp, if_neg (by norm_num), if_neg (by rw [k3]; intro h; linarith [h.1])]
    have h1 : (s.progress + d) / s.avg ≤ now - s.start := by
      rw [div_le_iff₀ havg]; linarith
    simp only
    rw [max_eq_left (by norm_num), ← k2, ← e1, ← k1, max_eq_left (by linarith)]
    ring

/-- **C40 (large requests).**  `limit` charges a request in pieces that add up to it, none
of which trips the check of the request size. -/
theorem C40_pieces (single d : Int) (h : 0 < single) (hd : 0 ≤ d) :
    (limitChunks single d.toNat d).sum = d ∧ ∀ c ∈ limitChunks single d.toNat d, 0 < c ∧ c ≤ single := by
  have key : ∀ (n : Nat) (d : Int), d.toNat ≤ n → 0 ≤ d →
      (limitChunks single n d).sum = d ∧ ∀ c ∈ limitChunks single n d, 0 < c ∧ c ≤ single := by
    intro n
    induction n with
    | zero => intro d h1 h2; have : d = 0 := by omega
              subst this; simp [limitChunks]
    | succ n ih =>
      intro d h1 h2
      unfold limitChunks
      split
      · obtain ⟨a, b⟩ := ih (d - min single d) (by omega) (by omega)
        refine ⟨by rw [List.sum_cons, a]; omega, ?_⟩
        intro c hc
        rcases List.mem_cons.1 hc with rfl | hc
        · omega
        · exact b c hc
      · have : d = 0 := by omega
        subst this; simp
  exact key _ d (Nat.le_refl _) hd

example : ∃ t0 s0 es s, CountFrom t0 s0 ∧ 0 < s0.avg ∧ Busy es ∧ s0.run es = .ok s ∧ numCharges es = 2 ∧
    s.resume 10 1 = 5 := by
  refine ⟨1, Thr.startTransfer { avg := 10, rate := 0, limit := 0, single := 20 } 1,
    [.charge 20 1, .start 1, .charge 10 1],
    { start := 1, lastFill := 1, progress := 30, refs := 2, avg := 10, rate := 0, limit := 0, single := 20 },
    .start _ rfl, by norm_num [Thr.startTransfer, Thr.reset], ⟨?_, by simp⟩, ?_, rfl, ?_⟩
  · intro p hp
    have h3 : p = [TEv.charge 20 1, .start 1, .charge 10 1].take p.length := List.prefix_iff_eq_take.1 hp
    rw [h3]
    rcases p.length with _ | _ | _ | n <;> simp [netStarts]
  · norm_num [Thr.run, Thr.step, Thr.calculateSleep, Thr.startTransfer, Thr.reset, Thr.averageThrottler]
  · norm_num [Thr.resume, Thr.calculateSleep, Thr.averageThrottler]

theorem truncQ_lt (q : ℚ) : (truncQ q : ℚ) < q + 1 := by
  unfold truncQ
  split
  · exact Int.ceil_lt_add_one q
  · linarith [Int.floor_le q]

theorem truncQ_pos_le (q : ℚ) (h : 0 ≤ q) : (truncQ q : ℚ) ≤ q := by
  unfold truncQ
  rw [if_neg (by linarith)]
  exact Int.floor_le q

/-- What a charge does to the bucket when only the peak rate is limited. -/
theorem calc_bucket (t : Thr) (d : Int) (now : ℚ) (hr : 0 < t.refs) (ha : t.avg ≤ 0) (hp : 0 < t.rate) (hl : 0 < t.limit) :
    let t' := (t.calculateSleep d now).1
    (t'.tokens : ℚ) + d < t.tokens + (now - t.lastFill) * t.rate + 1 ∧ (t'.tokens : ℚ) + d ≤ t.limit ∧ t'.lastFill = now ∧
    ((0 ≤ t'.tokens ∧ t.resume d now = now) ∨ (t'.tokens < 0 ∧ t.rate * (t.resume d now - now) = -t'.tokens)) := by
  have hav : ({ t with progress := t.progress + d } : Thr).averageThrottler now = -1 := by
    simp only [Thr.averageThrottler]
    rw [if_pos ha]
  have hc : t.calculateSleep d now = ({ t with progress := t.progress + d } : Thr).useBucket d now := by
    unfold Thr.calculateSleep
    rw [if_neg (by omega)]
    simp only [hav]
    rw [if_neg (by norm_num), if_pos ⟨hp, hl⟩]
  unfold Thr.resume
  rw [hc]
  unfold Thr.useBucket
  simp only
  have h1 := truncQ_lt (t.tokens + (now - t.lastFill) * t.rate)
  generalize hk : (if (truncQ (t.tokens + (now - t.lastFill) * t.rate) : ℚ) > t.limit then truncQ t.limit
    else truncQ (t.tokens + (now - t.lastFill) * t.rate)) = k
  have h2 : (k : ℚ) < t.tokens + (now - t.lastFill) * t.rate + 1 ∧ (k : ℚ) ≤ t.limit := by
    have := truncQ_pos_le t.limit (le_of_lt hl)
    rw [← hk]
    split
    · exact ⟨by linarith, by linarith⟩
    · exact ⟨h1, by linarith⟩
  split
  · rename_i hneg
    have hq : ((k - d : Int) : ℚ) < 0 := by exact_mod_cast hneg
    refine ⟨by push_cast; linarith [h2.1], by push_cast; linarith [h2.2], rfl, .inr ⟨hneg, ?_⟩⟩
    have : 0 < -1 * ((k - d : Int) : ℚ) / t.rate := div_pos (by linarith) hp
    simp only
    rw [max_eq_right (le_of_lt this)]
    field_simp
    ring
  · refine ⟨by push_cast; linarith [h2.1], by push_cast; linarith [h2.2], rfl, .inl ⟨by simp only; omega, ?_⟩⟩
    simp

/-- The bucket over a history. -/
theorem run_bucket {t t' : Thr} {es : List TEv} (h : t.run es = .ok t') (hr : 0 < t.refs) (ha : t.avg ≤ 0)
    (hp : 0 < t.rate) (hl : 0 < t.limit)
    (hb : ∀ p, p <+: es → 0 < t.refs + netStarts p) (hs : ∀ a p b now, .setRates a p b now ∉ es) :
    (t'.tokens : ℚ) + charged es ≤ t.tokens + (t'.lastFill - t.lastFill) * t.rate + numCharges es := by
  induction es generalizing t with
  | nil => cases h; simp [charged, numCharges]
  | cons e es ih =>
    unfold Thr.run at h
    split at h
    · cases h
    · rename_i t1 h1
      have hpre : ∀ p, p <+: es → (e :: p) <+: e :: es := fun p hp => by simpa using hp
      have h0 := hb [e] ⟨es, rfl⟩
      cases e with
      | charge d now =>
        simp only [Thr.step] at h1
        split at h1
        · cases h1
        · cases h1
          obtain ⟨k1, k2, k3, k4, k5, k6⟩ := calc_keep t d now
          have := ih h (by rw [k2]; exact hr) (by rw [k3]; exact ha) (by rw [k4]; exact hp) (by rw [k5]; exact hl) (fun p hp => by
            have := hb _ (hpre p hp); simp only [netStarts] at this; rw [k2]; exact this) fun a p b n hm => hs a p b n (by simp [hm])
          obtain ⟨a1, a2, a3, -⟩ := calc_bucket t d now hr ha hp hl
          rw [k4, a3] at this
          simp only [charged, numCharges]
          push_cast
          linarith
      | start now =>
        simp only [Thr.step] at h1
        cases h1
        have e0 : t.startTransfer now = { t with refs := t.refs + 1 } := by
          unfold Thr.startTransfer; rw [if_neg (by omega)]
        rw [e0] at h
        have := ih h (by simp only; omega) ha hp hl (fun p hp => by
            have := hb _ (hpre p hp); simp only [netStarts] at this ⊢; omega) fun a p b n hm => hs a p b n (by simp [hm])
        simpa only [charged, numCharges] using this
      | stop =>
        simp only [Thr.step, Thr.endTransfer] at h1
        rw [if_pos hr] at h1
        cases h1
        simp only [netStarts] at h0
        have := ih h (by simp only; omega) ha hp hl (fun p hp => by
            have := hb _ (hpre p hp); simp only [netStarts] at this ⊢; omega) fun a p b n hm => hs a p b n (by simp [hm])
        simpa only [charged, numCharges] using this
      | setRates a p b now => exact absurd (by simp) (hs a p b now)

/-- **C41 (in part).**  With a peak rate and no average rate: of any calls, the amount
admitted from one call to a later one is at most the burst limit (or the first request, if
that is larger) plus the peak rate times the time between the moments at which the two
callers continue, plus one for every call after the first.

Missing: the full claim has no "plus one for every call".  It is false
(`C41_violated`): the bucket is an integer, and a negative level is rounded up. -/
theorem C41_peak_partial (s1 : Thr) (hr : 0 < s1.refs) (ha : s1.avg ≤ 0) (hp : 0 < s1.rate) (hl : 0 < s1.limit)
    (d1 : Int) (t1 : ℚ) (s2 : Thr) (h1 : s1.step (.charge d1 t1) = .ok s2) (mid : List TEv) (hb : Busy mid)
    (s3 : Thr) (h2 : s2.run mid = .ok s3) (d2 : Int) (t2 : ℚ) :
    charged ([.charge d1 t1] ++ mid ++ [.charge d2 t2]) ≤
      max s1.limit d1 + s1.rate * (s3.resume d2 t2 - s1.resume d1 t1) + (numCharges mid + 1) := by
  simp only [Thr.step] at h1
  split at h1
  · cases h1
  cases h1
  obtain ⟨k1, k2, k3, k4, k5, k6⟩ := calc_keep s1 d1 t1
  obtain ⟨a1, a2, a3, a4⟩ := calc_bucket s1 d1 t1 hr ha hp hl
  generalize (s1.calculateSleep d1 t1).1 = s2 at *
  have hbb : ∀ p, p <+: mid → 0 < s2.refs + netStarts p := fun p hp => by have := hb.1 p hp; omega
  have hm := run_bucket h2 (by omega) (by rw [k3]; exact ha) (by rw [k4]; exact hp) (by rw [k5]; exact hl) hbb hb.2
  obtain ⟨-, m2, m3, m4, m5, -⟩ := run_keep h2 (by omega) hbb hb.2
  obtain ⟨b1, b2, b3, b4⟩ := calc_bucket s3 d2 t2 m5 (by rw [m2, k3]; exact ha) (by rw [m3, k4]; exact hp) (by rw [m4, k5]; exact hl)
  generalize (s3.calculateSleep d2 t2).1 = s4 at *
  rw [m3, k4] at b1 b4
  rw [k4, a3] at hm
  rw [charged_append, charged_append]
  simp only [charged]
  have l1 := le_max_left s1.limit (d1 : ℚ)
  have l2 := le_max_right s1.limit (d1 : ℚ)
  generalize hM : max s1.limit (d1 : ℚ) = M at *
  -- first call: what is left in the bucket, in terms of the time of continuing
  have f1 : (d1 : ℚ) + s2.tokens ≤ M + s1.rate * (t1 - s1.resume d1 t1) := by
    rcases a4 with ⟨-, e⟩ | ⟨-, e⟩
    · rw [e]; linarith
    · have : s1.rate * (t1 - s1.resume d1 t1) = s2.tokens := by linarith
      rw [this]; linarith
  have f2 : s1.rate * (t2 - s3.resume d2 t2) ≤ s4.tokens := by
    rcases b4 with ⟨e0, e⟩ | ⟨-, e⟩
    · rw [e]; have : (0 : ℚ) ≤ s4.tokens := by exact_mod_cast e0
      linarith
    · linarith
  linarith

/-- The state of the throttler in `C41_violated` after `k` of the small requests. -/
def tricked (δ : ℚ) (k : Nat) : Thr :=
  { start := 0, lastFill := k * δ, progress := 10 + k, tokens := -10, refs := 1, avg := -1, rate := 10, limit := 5, single := 16 }

/-- `m` requests of 1, every `δ` seconds, from number `k` on. -/
def trickle (δ : ℚ) : Nat → Nat → List TEv
  | _, 0 => []
  | k, m + 1 => .charge 1 ((k + 1 : Nat) * δ) :: trickle δ (k + 1) m

theorem truncQ_up (x : ℚ) (h0 : 0 < x) (h1 : x ≤ 1) : truncQ (-10 + x) = -9 := by
  unfold truncQ
  rw [if_pos (by linarith), Int.ceil_eq_iff]
  constructor <;> push_cast <;> linarith

theorem tricked_charge (δ : ℚ) (h0 : 0 < δ) (h1 : δ * 10 ≤ 1) (k : Nat) :
    (tricked δ k).calculateSleep 1 ((k + 1 : Nat) * δ) = (tricked δ (k + 1), 1) := by
  have h : truncQ (((-10 : Int) : ℚ) + (((k + 1 : Nat) : ℚ) * δ - k * δ) * 10) = -9 := by
    have e : ((-10 : Int) : ℚ) + (((k + 1 : Nat) : ℚ) * δ - k * δ) * 10 = -10 + δ * 10 := by push_cast; ring
    rw [e]
    exact truncQ_up _ (by linarith) h1
  have hav : ({ tricked δ k with progress := (tricked δ k).progress + (1 : Int) } : Thr).averageThrottler ((k + 1 : Nat) * δ) = -1 := by
    unfold Thr.averageThrottler
    exact if_pos (by norm_num [tricked])
  unfold Thr.calculateSleep
  rw [if_neg (by simp [tricked])]
  simp only [hav]
  rw [if_neg (by norm_num), if_pos (by norm_num [tricked])]
  unfold Thr.useBucket tricked
  simp only [h]
  norm_num
  ring

theorem trickle_run (δ : ℚ) (h0 : 0 < δ) (h1 : δ * 10 ≤ 1) (k m : Nat) :
    (tricked δ k).run (trickle δ k m) = .ok (tricked δ (k + m)) := by
  induction m generalizing k with
  | zero => rfl
  | succ m ih =>
    unfold trickle Thr.run
    have : (tricked δ k).step (.charge 1 ((k + 1 : Nat) * δ)) = .ok (tricked δ (k + 1)) := by
      simp only [Thr.step]
      rw [if_neg (by simp [tricked]), tricked_charge δ h0 h1]
    rw [this]
    simp only
    rw [ih]
    congr 2
    omega

theorem trickle_resume (δ : ℚ) (h0 : 0 < δ) (h1 : δ * 10 ≤ 1) (k m : Nat) (pre post : List TEv) (d : Int) (now : ℚ) (s : Thr)
    (he : trickle δ k m = pre ++ .charge d now :: post) (hs : (tricked δ k).run pre = .ok s) :
    s.resume d now = now + 1 ∧ k * δ ≤ now ∧ now ≤ (k + m : Nat) * δ := by
  induction m generalizing k pre with
  | zero => simp [trickle] at he
  | succ m ih =>
    unfold trickle at he
    cases pre with
    | nil =>
      simp only [List.nil_append, List.cons.injEq, TEv.charge.injEq] at he
      obtain ⟨⟨rfl, rfl⟩, -⟩ := he
      cases hs
      refine ⟨?_, ?_, ?_⟩
      · unfold Thr.resume
        rw [tricked_charge δ h0 h1]
        norm_num
      · push_cast; linarith
      · push_cast
        have : (0 : ℚ) ≤ m * δ := mul_nonneg (Nat.cast_nonneg _) (le_of_lt h0)
        linarith
    | cons e pre =>
      simp only [List.cons_append, List.cons.injEq] at he
      obtain ⟨rfl, he⟩ := he
      unfold Thr.run at hs
      have : (tricked δ k).step (.charge 1 ((k + 1 : Nat) * δ)) = .ok (tricked δ (k + 1)) := by
        simp only [Thr.step]
        rw [if_neg (by simp [tricked]), tricked_charge δ h0 h1]
      rw [this] at hs
      obtain ⟨a, b, c⟩ := ih (k + 1) pre he hs
      refine ⟨a, ?_, ?_⟩
      · push_cast at b; linarith
      · have : k + 1 + m = k + (m + 1) := by omega
        rw [this] at c; exact c

theorem trickle_charged (δ : ℚ) (k m : Nat) : charged (trickle δ k m) = m := by
  induction m generalizing k with
  | zero => simp [trickle, charged]
  | succ m ih => simp only [trickle, charged, ih]; push_cast; ring

/-- **C41 is violated.**  Peak rate 10 per second, burst limit 5, no average limit.  After
a first request of 10, any number `n` of requests of 1 can be admitted within a tenth of a
second (the claim allows 7 in all): made one shortly after the other, every one of them
finds the level of the bucket rounded up to the next integer. -/
theorem C41_violated (n : Nat) (hn : 0 < n) :
    ∃ (s0 : Thr) (es : List TEv), s0.avg ≤ 0 ∧ s0.rate = 10 ∧ s0.limit = 5 ∧ CountFrom 0 s0 ∧ charged es = n + 10 ∧
      (∃ s, s0.run es = .ok s) ∧
      ∀ pre d now post s, es = pre ++ .charge d now :: post → s0.run pre = .ok s →
        1 ≤ s.resume d now ∧ s.resume d now ≤ 1 + 1 / 10 := by
  have hq : (0 : ℚ) < n := by exact_mod_cast hn
  have h0 : (0 : ℚ) < 1 / (10 * n) := by positivity
  have h1 : (1 / (10 * n) : ℚ) * 10 ≤ 1 := by
    have : (1 / (10 * n) : ℚ) * 10 = 1 / n := by field_simp
    rw [this, div_le_one hq]
    exact_mod_cast hn
  have hend : ((n : Nat) : ℚ) * (1 / (10 * n)) = 1 / 10 := by field_simp
  generalize (1 / (10 * n) : ℚ) = δ at *
  have hfirst : (Thr.startTransfer { avg := -1, rate := 10, limit := 5, single := 16 } 0).calculateSleep 10 0 = (tricked δ 0, 1) := by
    norm_num [Thr.startTransfer, Thr.reset, Thr.calculateSleep, Thr.averageThrottler, Thr.useBucket, tricked, truncQ]
  have hstep : (Thr.startTransfer { avg := -1, rate := 10, limit := 5, single := 16 } 0).step (.charge 10 0) = .ok (tricked δ 0) := by
    simp only [Thr.step]
    rw [hfirst, if_neg (by simp [Thr.startTransfer, Thr.reset])]
  refine ⟨Thr.startTransfer { avg := -1, rate := 10, limit := 5, single := 16 } 0, .charge 10 0 :: trickle δ 0 n,
    by norm_num [Thr.startTransfer, Thr.reset], by simp [Thr.startTransfer, Thr.reset], by simp [Thr.startTransfer, Thr.reset],
    .start _ rfl, ?_, ⟨tricked δ (0 + n), ?_⟩, ?_⟩
  · simp only [charged, trickle_charged]; push_cast; ring
  · unfold Thr.run
    rw [hstep]
    exact trickle_run δ h0 h1 0 n
  · intro pre d now post s he hs
    cases pre with
    | nil =>
      simp only [List.nil_append, List.cons.injEq, TEv.charge.injEq] at he
      obtain ⟨⟨rfl, rfl⟩, -⟩ := he
      cases hs
      unfold Thr.resume
      rw [hfirst]
      norm_num
    | cons e pre =>
      simp only [List.cons_append, List.cons.injEq] at he
      obtain ⟨rfl, he⟩ := he
      unfold Thr.run at hs
      rw [hstep] at hs
      obtain ⟨a, b, c⟩ := trickle_resume δ h0 h1 0 n pre post d now s he hs
      rw [Nat.zero_add, hend] at c
      simp only [Nat.cast_zero, zero_mul] at b
      rw [a]
      constructor <;> linarith

/-- **C41: the burst limit is not always configured.**  Throttler.h:22-35 documents that a
peak rate of 0 means 1.2 times the average rate, with a burst limit derived from it.  A
throttler made with those options has no peak limit at all: with an average of 100 per
second, after 10 idle seconds it admits 1000 at once. -/
theorem C41_violated_unconfigured :
    ∃ s : Thr, Thr.make { avg := 100, max := 0, bucket := 0, single := 1000 } = .ok s ∧
      configureOptions 100 0 0 = (120, 60) ∧ (s.startTransfer 0).resume 1000 10 = 10 := by
  refine ⟨{ avg := 100, rate := 0, limit := 0, single := 1000 }, ?_, ?_, ?_⟩
  · norm_num [Thr.make]
  · norm_num [configureOptions]
  · norm_num [Thr.startTransfer, Thr.reset, Thr.resume, Thr.calculateSleep, Thr.averageThrottler]

/-- **C40: setting the rates restarts the counting.**  Setting the rates, as making
another sender or receiver that shares the throttler does, forgets what was charged.  With
an average of 10 per second, two requests of 10 at time 0 are both admitted at time 1 if
the same rates are set in between. -/
theorem C40_violated_reset :
    ∃ (s0 : Thr) (es : List TEv) (s : Thr), CountFrom 0 s0 ∧ s0.avg = 10 ∧ s0.run es = .ok s ∧ s.avg = 10 ∧
      charged (es ++ [.charge 10 0]) = 20 ∧ s.resume 10 0 = 1 := by
  refine ⟨Thr.startTransfer { avg := 10, rate := 0, limit := 0, single := 16 } 0,
    [.charge 10 0, .setRates 10 (-1) 0 0], { avg := 10, rate := -1, limit := 0, single := 16, refs := 1 }, .start _ rfl,
    by simp [Thr.startTransfer, Thr.reset], ?_, rfl, ?_, ?_⟩
  · norm_num [Thr.run, Thr.step, Thr.startTransfer, Thr.reset, Thr.calculateSleep, Thr.averageThrottler, Thr.setRates, configureOptions]
  · norm_num [charged]
  · norm_num [Thr.resume, Thr.calculateSleep, Thr.averageThrottler]

/-- The hypotheses of `C41_peak_partial` are met, and the bound is not trivial. -/
example : ∃ (s1 s2 : Thr) (mid : List TEv) (s3 : Thr), 0 < s1.refs ∧ s1.avg ≤ 0 ∧ 0 < s1.rate ∧ 0 < s1.limit ∧
    s1.step (.charge 5 1) = .ok s2 ∧ Busy mid ∧ s2.run mid = .ok s3 ∧ numCharges mid = 1 ∧ s3.resume 10 1 = 5 / 2 := by
  refine ⟨{ avg := -1, rate := 10, limit := 5, single := 16, refs := 1 },
    { avg := -1, rate := 10, limit := 5, single := 16, refs := 1, lastFill := 1, progress := 5 },
    [.charge 5 1],
    { avg := -1, rate := 10, limit := 5, single := 16, refs := 1, lastFill := 1, progress := 10, tokens := -5 },
    by norm_num, by norm_num, by norm_num, by norm_num, ?_, ⟨?_, by simp⟩, ?_, rfl, ?_⟩
  · norm_num [Thr.step, Thr.calculateSleep, Thr.averageThrottler, Thr.useBucket, truncQ]
  · intro p hp
    have h3 : p = [TEv.charge 5 1].take p.length := List.prefix_iff_eq_take.1 hp
    rw [h3]
    rcases p.length with _ | n <;> simp [netStarts]
  · norm_num [Thr.run, Thr.step, Thr.calculateSleep, Thr.averageThrottler, Thr.useBucket, truncQ]
  · norm_num [Thr.resume, Thr.calculateSleep, Thr.averageThrottler, Thr.useBucket, truncQ]

end Wdt
