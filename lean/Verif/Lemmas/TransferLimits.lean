import Verif.Lemmas.TransferRegistry
/-
The limits of the resource controller, in terms of the calls made so far.
-/
namespace Wdt

/-- The limit of all objects of a kind after the calls `h` (latest first): the one set last, or the one given at the start. -/
def TrLimit (max : RKind → Int) : List (TrOp × TrRes) → RKind → Int
  | [], k => max k
  | (.setMax k' v, _) :: h, k => if k' = k then v else TrLimit max h k
  | _ :: h, k => TrLimit max h k

open Classical in
/-- The limit of the objects of a kind in a namespace after the calls `h`: the one set last while the namespace has been known
without interruption, or the one new namespaces get. -/
noncomputable def TrNsLimit (nsMax : RKind → Int) : List (TrOp × TrRes) → RKind → Nat → Int
  | [], k, _ => nsMax k
  | (.setNsMax k' m v, _) :: h, k, n => if k' = k ∧ m = n ∧ TrKnown h n then v else TrNsLimit nsMax h k n
  | (.deregister m, _) :: h, k, n => if m = n then nsMax k else TrNsLimit nsMax h k n
  | (.shutdown, _) :: _, k, _ => nsMax k
  | _ :: h, k, n => TrNsLimit nsMax h k n

/-- The limit that applies to a namespace, made or not. -/
def TrCtl.lim (s : TrCtl) (k : RKind) (n : Nat) : Int := match s.ns n with | some x => x.max k | none => s.nsMax k

theorem put_lim (s : TrCtl) {n : Nat} {x x' : TrNs} (hx : s.ns n = some x) (hm : x'.max = x.max) (k : RKind) (m : Nat) :
    (s.put n x').lim k m = s.lim k m := by
  unfold TrCtl.lim TrCtl.put
  by_cases g : m = n
  · subst g; simp [hx, hm]
  · simp [g]

theorem newNs_lim (s : TrCtl) {n : Nat} (hx : s.ns n = none) (k : RKind) (m : Nat) : (s.newNs n).lim k m = s.lim k m := by
  unfold TrCtl.lim TrCtl.newNs
  by_cases g : m = n
  · subst g; simp [hx]
  · simp [g]

theorem nsCreate_max (x : TrNs) (k : RKind) (id o : Nat) : (x.create k id o).1.max = x.max := by
  unfold TrNs.create
  split
  · rfl
  · split <;> rfl

theorem nsRelease_max (x : TrNs) (k : RKind) (id : Nat) : (x.release k id).1.max = x.max := by
  unfold TrNs.release
  split <;> rfl

/-- What creation does to limits, and when it succeeds. -/
theorem create_limits (s : TrCtl) (k : RKind) (n id : Nat) {s' : TrCtl} {c : ErrCode} {o : Option Nat}
    (e : s.create k n id = (s', .made c o)) :
    s'.max = s.max ∧ s'.nsMax = s.nsMax ∧ (∀ k m, s'.lim k m = s.lim k m) ∧
      (c = eOK → s.hasQuota k (s.ns n) = true ∧ s.hasQuota k (some ((s.ns n).getD { max := s.nsMax })) = true) ∧
      (c = eQUOTA_EXCEEDED → s.hasQuota k (some ((s.ns n).getD { max := s.nsMax })) = false) := by
  unfold TrCtl.create at e
  by_cases g : s.ns n = none ∧ s.strict
  · rw [if_pos g] at e
    cases e
    exact ⟨rfl, rfl, fun _ _ => rfl, fun h => absurd h (by decide), fun h => absurd h (by decide)⟩
  · rw [if_neg g] at e
    have key : ∀ (s1 : TrCtl) (x : TrNs), s1.ns n = some x → s1.num = s.num → s1.max = s.max → s1.nsMax = s.nsMax →
        (∀ k m, s1.lim k m = s.lim k m) →
        (match s1.ns n with
          | none => (s1, TrRes.made eNOT_FOUND none)
          | some x =>
            if !s1.hasQuota k (some x) then (s1, .made eQUOTA_EXCEEDED none)
            else match x.create k id s1.next with
              | (x', c, o) =>
                if c = eOK then ({ s1.put n x' with num := updK s1.num k (s1.num k + 1), next := s1.next + 1 }, .made c o)
                else (s1.put n x', .made c o)) = (s', .made c o) →
        s'.max = s.max ∧ s'.nsMax = s.nsMax ∧ (∀ k m, s'.lim k m = s.lim k m) ∧
          (c = eOK → s.hasQuota k (some x) = true) ∧ (c = eQUOTA_EXCEEDED → s.hasQuota k (some x) = false) := by
      intro s1 x hx h0 h1 h2 h3 e
      have hqs : s1.hasQuota k (some x) = s.hasQuota k (some x) := by unfold TrCtl.hasQuota; rw [h0, h1]
      rw [hx] at e
      dsimp only at e
      by_cases hq : (!s1.hasQuota k (some x)) = true
      · rw [if_pos hq] at e
        cases e
        exact ⟨h1, h2, h3, fun h => absurd h (by decide), fun _ => by rw [← hqs]; simpa using hq⟩
      · rw [if_neg hq] at e
        have hq' : s1.hasQuota k (some x) = true := by simpa using hq
        have hxq : x.hasQuota k = true := by
          have := hq'
          unfold TrCtl.hasQuota at this
          split at this
          · cases this
          · exact this
        have hmx := nsCreate_max x k id s1.next
        have hcq : (x.create k id s1.next).2.1 ≠ eQUOTA_EXCEEDED := by
          unfold TrNs.create
          split
          · dsimp only; decide
          · rw [if_neg (by simp [hxq])]; dsimp only; decide
        rcases hc : x.create k id s1.next with ⟨x', c', o'⟩
        rw [hc] at e hmx hcq
        dsimp only at e hmx hcq
        by_cases h0 : c' = eOK
        · rw [if_pos h0] at e
          cases e
          exact ⟨h1, h2, fun k' m => (put_lim s1 hx hmx k' m).trans (h3 k' m), fun _ => by rw [← hqs]; exact hq', fun h => absurd h hcq⟩
        · rw [if_neg h0] at e
          cases e
          exact ⟨h1, h2, fun k' m => (put_lim s1 hx hmx k' m).trans (h3 k' m), fun h => absurd h h0, fun h => absurd h hcq⟩
    rcases hn : s.ns n with _ | x
    · simp only [if_pos hn] at e
      obtain ⟨a, b, c1, d, f⟩ := key (s.newNs n) { max := s.nsMax } (by simp [TrCtl.newNs]) rfl rfl rfl (newNs_lim s hn) e
      refine ⟨a, b, c1, fun h => ⟨?_, d h⟩, f⟩
      have := d h
      unfold TrCtl.hasQuota at this ⊢
      split at this
      · cases this
      · rename_i g; rw [if_neg g]
    · have hne : ¬ s.ns n = none := by rw [hn]; simp
      simp only [if_neg hne] at e
      obtain ⟨a, b, c1, d, f⟩ := key s x hn rfl rfl rfl (fun _ _ => rfl) e
      exact ⟨a, b, c1, fun h => ⟨d h, d h⟩, f⟩

theorem step_limits {max nsMax : RKind → Int} {s s' : TrCtl} {op : TrOp} {r : TrRes} {h : List (TrOp × TrRes)} (e : s.step op = .ok (s', r))
    (hk : ∀ n, TrKnown h n ↔ s.ns n ≠ none) (h1 : ∀ k, s.max k = TrLimit max h k) (h2 : s.nsMax = nsMax)
    (h3 : ∀ k n, s.lim k n = TrNsLimit nsMax h k n) :
    (∀ k, s'.max k = TrLimit max ((op, r) :: h) k) ∧ s'.nsMax = nsMax ∧ ∀ k n, s'.lim k n = TrNsLimit nsMax ((op, r) :: h) k n := by
  have same : s'.max = s.max → s'.nsMax = s.nsMax → (∀ k n, s'.lim k n = s.lim k n) →
      (∀ k, TrLimit max ((op, r) :: h) k = TrLimit max h k) → (∀ k n, TrNsLimit nsMax ((op, r) :: h) k n = TrNsLimit nsMax h k n) →
      (∀ k, s'.max k = TrLimit max ((op, r) :: h) k) ∧ s'.nsMax = nsMax ∧ ∀ k n, s'.lim k n = TrNsLimit nsMax ((op, r) :: h) k n := by
    intro a b c d f
    exact ⟨fun k => by rw [a, d, h1], by rw [b, h2], fun k n => by rw [c, f, h3]⟩
  cases op with
  | create k n id =>
    simp only [TrCtl.step, Except.ok.injEq] at e
    obtain ⟨_, c, o, rfl, _⟩ := create_frame s k n id e
    obtain ⟨a, b, c1, _⟩ := create_limits s k n id e
    exact same a b c1 (fun _ => rfl) (fun _ _ => rfl)
  | shutdown =>
    simp only [TrCtl.step] at e
    split at e
    · cases e; exact ⟨fun k => h1 k, h2, fun k n => by simp [TrCtl.lim, TrNsLimit, h2]⟩
    · cases e
  | release k n id =>
    simp only [TrCtl.step] at e
    rcases hx : s.ns n with _ | x
    · rw [hx] at e; cases e; exact same rfl rfl (fun _ _ => rfl) (fun _ => rfl) (fun _ _ => rfl)
    · rw [hx] at e
      dsimp only at e
      by_cases g : (x.release k id).2 = eOK
      · rw [if_pos g] at e; cases e
        exact same rfl rfl (fun k' m => put_lim s hx (nsRelease_max x k id) k' m) (fun _ => rfl) (fun _ _ => rfl)
      · rw [if_neg g] at e; cases e; exact same rfl rfl (fun _ _ => rfl) (fun _ => rfl) (fun _ _ => rfl)
  | register n =>
    simp only [TrCtl.step] at e
    by_cases g : s.ns n = none
    · rw [if_pos g] at e; cases e
      exact same rfl rfl (newNs_lim s g) (fun _ => rfl) (fun _ _ => rfl)
    · rw [if_neg g] at e; cases e; exact same rfl rfl (fun _ _ => rfl) (fun _ => rfl) (fun _ _ => rfl)
  | hasQuota k n => simp only [TrCtl.step] at e; cases e; exact same rfl rfl (fun _ _ => rfl) (fun _ => rfl) (fun _ _ => rfl)
  | counts => simp only [TrCtl.step] at e; cases e; exact same rfl rfl (fun _ _ => rfl) (fun _ => rfl) (fun _ _ => rfl)
  | setMax k v =>
    simp only [TrCtl.step] at e; cases e
    refine ⟨fun k' => ?_, h2, h3⟩
    dsimp only [TrLimit]
    by_cases g : k' = k
    · subst g; rw [tr_updK_same, if_pos rfl]
    · rw [tr_updK_other _ _ g, if_neg (Ne.symm g), h1]
  | setStrict b => simp only [TrCtl.step] at e; cases e; exact same rfl rfl (fun _ _ => rfl) (fun _ => rfl) (fun _ _ => rfl)
  | releaseAll k n =>
    simp only [TrCtl.step] at e
    rcases hx : s.ns n with _ | x
    · rw [hx] at e; cases e; exact same rfl rfl (fun _ _ => rfl) (fun _ => rfl) (fun _ _ => rfl)
    · rw [hx] at e; cases e
      exact same rfl rfl (fun k' m => put_lim s (x' := (x.releaseAll k).1) hx rfl k' m) (fun _ => rfl) (fun _ _ => rfl)
  | releaseStale k n st =>
    simp only [TrCtl.step] at e
    rcases hx : s.ns n with _ | x
    · rw [hx] at e; cases e; exact same rfl rfl (fun _ _ => rfl) (fun _ => rfl) (fun _ _ => rfl)
    · rw [hx] at e; cases e
      exact same rfl rfl (fun k' m => put_lim s (x' := (x.releaseStale k st).1) hx rfl k' m) (fun _ => rfl) (fun _ _ => rfl)
  | get k n id =>
    simp only [TrCtl.step] at e
    rcases hx : s.ns n with _ | x <;> rw [hx] at e <;> cases e <;> exact same rfl rfl (fun _ _ => rfl) (fun _ => rfl) (fun _ _ => rfl)
  | getAll k n =>
    simp only [TrCtl.step] at e
    rcases hx : s.ns n with _ | x <;> rw [hx] at e <;> cases e <;> exact same rfl rfl (fun _ _ => rfl) (fun _ => rfl) (fun _ _ => rfl)
  | getIds k n =>
    simp only [TrCtl.step] at e
    rcases hx : s.ns n with _ | x <;> rw [hx] at e <;> cases e <;> exact same rfl rfl (fun _ _ => rfl) (fun _ => rfl) (fun _ _ => rfl)
  | deregister n =>
    simp only [TrCtl.step] at e
    rcases hx : s.ns n with _ | x
    · rw [hx] at e; cases e
      refine ⟨h1, h2, fun k m => ?_⟩
      dsimp only [TrNsLimit]
      by_cases g : n = m
      · subst g; rw [if_pos rfl]; simp [TrCtl.lim, hx, h2]
      · rw [if_neg g, h3]
    · rw [hx] at e; cases e
      refine ⟨h1, h2, fun k m => ?_⟩
      dsimp only [TrNsLimit]
      by_cases g : n = m
      · subst g; rw [if_pos rfl]; simp [TrCtl.lim, h2]
      · rw [if_neg g, ← h3]; simp [TrCtl.lim, Ne.symm g]
  | setNsMax k n v =>
    simp only [TrCtl.step] at e
    rcases hx : s.ns n with _ | x
    · rw [hx] at e; cases e
      refine ⟨h1, h2, fun k' m => ?_⟩
      dsimp only [TrNsLimit]
      rw [if_neg, h3]
      rintro ⟨_, rfl, g⟩
      exact (hk _).1 g hx
    · rw [hx] at e; cases e
      refine ⟨h1, h2, fun k' m => ?_⟩
      dsimp only [TrNsLimit]
      by_cases g : n = m
      · subst g
        by_cases g2 : k = k'
        · subst g2
          rw [if_pos ⟨rfl, rfl, (hk _).2 (by rw [hx]; simp)⟩]
          simp [TrCtl.lim, TrCtl.put, tr_updK_same]
        · rw [if_neg (fun h => g2 h.1), ← h3]
          simp [TrCtl.lim, TrCtl.put, hx, tr_updK_other _ _ (Ne.symm g2)]
      · rw [if_neg (fun h => g h.2.1), ← h3]
        simp [TrCtl.lim, TrCtl.put, Ne.symm g]

theorem trace_limits {max nsMax : RKind → Int} {h : List (TrOp × TrRes)} {s : TrCtl} (t : TrTrace (.start max nsMax) h s) :
    (∀ k, s.max k = TrLimit max h k) ∧ s.nsMax = nsMax ∧ ∀ k n, s.lim k n = TrNsLimit nsMax h k n := by
  induction t with
  | nil => exact ⟨fun _ => rfl, rfl, fun _ _ => rfl⟩
  | @cons h s s' op r t e ih => exact step_limits e (trace_known t).1 ih.1 ih.2.1 ih.2.2

/-- One more object of the kind fits: fewer are alive than the limit of all and that of the namespace, if positive. -/
def TrRoom (max nsMax : RKind → Int) (h : List (TrOp × TrRes)) (k : RKind) (n : Nat) : Prop :=
  ∃ (all : List (Nat × Nat × Nat)) (here : List (Nat × Nat)), all.Nodup ∧ here.Nodup ∧
    (∀ m id o, (m, id, o) ∈ all ↔ TrAlive h k m id o) ∧ (∀ id o, (id, o) ∈ here ↔ TrAlive h k n id o) ∧
    (0 < TrLimit max h k → (all.length : Int) < TrLimit max h k) ∧
    (0 < TrNsLimit nsMax h k n → (here.length : Int) < TrNsLimit nsMax h k n)

theorem nodup_same_length {α : Type} {a b : List α} (ha : a.Nodup) (hb : b.Nodup) (h : ∀ x, x ∈ a ↔ x ∈ b) : a.length = b.length :=
  ((List.perm_ext_iff_of_nodup ha hb).2 h).length_eq

theorem room_iff {max nsMax : RKind → Int} {h : List (TrOp × TrRes)} {s : TrCtl} (t : TrTrace (.start max nsMax) h s) (k : RKind) (n : Nat) :
    (TrRoom max nsMax h k n ↔ s.hasQuota k (s.ns n) = true) ∧
      s.hasQuota k (some ((s.ns n).getD { max := s.nsMax })) = s.hasQuota k (s.ns n) := by
  obtain ⟨hw, ha⟩ := trace_inv t
  obtain ⟨l1, l2, l3⟩ := trace_limits t
  obtain ⟨l, hl1, hl2, hl3⟩ := WF.list hw k
  have hl4 : ∀ m id o, (m, id, o) ∈ l ↔ TrAlive h k m id o := fun m id o => by rw [hl2, ha]
  have hall : ∀ all : List (Nat × Nat × Nat), all.Nodup → (∀ m id o, (m, id, o) ∈ all ↔ TrAlive h k m id o) → all.length = l.length :=
    fun all h1 h2 => nodup_same_length h1 hl1 (fun ⟨m, id, o⟩ => by rw [h2, hl4])
  have hq : s.hasQuota k (s.ns n) = true ↔ (0 < TrLimit max h k → (l.length : Int) < TrLimit max h k) ∧
      ∀ x, s.ns n = some x → x.hasQuota k = true := by
    unfold TrCtl.hasQuota
    rw [hl3, l1]
    by_cases g : decide ((l.length : Int) ≥ TrLimit max h k) && decide (TrLimit max h k > 0)
    · rw [if_pos g]
      simp only [Bool.and_eq_true, decide_eq_true_eq] at g
      constructor
      · intro h; cases h
      · rintro ⟨h1, _⟩; have := h1 g.2; omega
    · rw [if_neg g]
      simp only [Bool.and_eq_true, decide_eq_true_eq] at g
      have h1 : 0 < TrLimit max h k → (l.length : Int) < TrLimit max h k := fun h0 => by
        omega
      rcases hx : s.ns n with _ | x
      · simp; exact h1
      · simp; exact fun _ => h1
  constructor
  · rw [hq]
    rcases hx : s.ns n with _ | x
    · have hno : ∀ id o, ¬ TrAlive h k n id o := fun id o => by rw [ha]; simp [TrCtl.Has, hx]
      constructor
      · rintro ⟨all, here, h1, _, h3, _, h5, _⟩
        exact ⟨fun h0 => by have := hall all h1 h3; have := h5 h0; omega, fun x hx' => by cases hx'⟩
      · rintro ⟨h1, _⟩
        exact ⟨l, [], hl1, List.nodup_nil, hl4, fun id o => by simp [hno], h1, fun h0 => by simpa using h0⟩
    · have hh : ∀ id o, (id, o) ∈ x.map k ↔ TrAlive h k n id o := fun id o => by rw [ha]; simp [TrCtl.Has, hx]
      have hnd : (x.map k).Nodup := List.Nodup.of_map _ (hw.keys n x k hx)
      have hlim : x.max k = TrNsLimit nsMax h k n := by rw [← l3]; simp [TrCtl.lim, hx]
      have hxq : x.hasQuota k = true ↔ (0 < TrNsLimit nsMax h k n → ((x.map k).length : Int) < TrNsLimit nsMax h k n) := by
        unfold TrNs.hasQuota
        rw [hw.lens n x k hx, hlim]
        simp only [Bool.not_eq_true', Bool.and_eq_false_iff, decide_eq_false_iff_not]
        omega
      constructor
      · rintro ⟨all, here, h1, h2, h3, h4, h5, h6⟩
        refine ⟨fun h0 => by have := hall all h1 h3; have := h5 h0; omega, fun x' hx' => ?_⟩
        cases hx'
        rw [hxq]
        intro h0
        have h7 := nodup_same_length h2 hnd (fun ⟨id, o⟩ => by rw [h4, hh])
        have := h6 h0
        omega
      · rintro ⟨h1, h2⟩
        exact ⟨l, x.map k, hl1, hnd, hl4, hh, h1, hxq.1 (h2 x rfl)⟩
  · rcases hx : s.ns n with _ | x
    · rcases hb : s.hasQuota k none with _ | _
      · rcases hb2 : s.hasQuota k (some { max := s.nsMax }) with _ | _
        · exact hb2
        · unfold TrCtl.hasQuota at hb hb2
          split at hb
          · rename_i g; rw [if_pos g] at hb2; cases hb2
          · cases hb
      · exact newNs_quota hb
    · rfl

end Wdt
