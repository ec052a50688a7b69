import Verif.Model.TransferRegistry
import Mathlib.Data.List.Nodup
/-
Lemmas for Props/TransferRegistry.lean.
-/
namespace Wdt

/-- `e` ends the life of object `o`. -/
def TrKills : TrOp × TrRes → RKind → Nat → Nat → Nat → Prop
  | (.release k' n' id', .code c), k, n, id, _ => c = eOK ∧ k' = k ∧ n' = n ∧ id' = id
  | (.releaseAll k' n', _), k, n, _, _ => k' = k ∧ n' = n
  | (.releaseStale k' n' stale, _), k, n, _, o => k' = k ∧ n' = n ∧ stale o = true
  | (.deregister n', _), _, n, _, _ => n' = n
  | (.shutdown, _), _, _, _, _ => True
  | _, _, _, _, _ => False

/-- `e` made object `o` under this name. -/
def TrMakes (e : TrOp × TrRes) (k : RKind) (n id o : Nat) : Prop := e = (.create k n id, .made eOK (some o))

/-- After the calls `h` (latest first) the object `o` made for this kind, namespace and identifier has not been released. -/
def TrAlive : List (TrOp × TrRes) → RKind → Nat → Nat → Nat → Prop
  | [], _, _, _, _ => False
  | e :: h, k, n, id, o => TrMakes e k n id o ∨ (TrAlive h k n id o ∧ ¬ TrKills e k n id o)

/-- The controller has the object under this name. -/
def TrCtl.Has (s : TrCtl) (k : RKind) (n id o : Nat) : Prop := ∃ x, s.ns n = some x ∧ (id, o) ∈ x.map k

def TrCtl.cnt (s : TrCtl) (k : RKind) (n : Nat) : Nat := match s.ns n with | some x => (x.map k).length | none => 0

structure TrCtl.WF (s : TrCtl) : Prop where
  names : s.names.Nodup
  dom : ∀ n, n ∈ s.names ↔ s.ns n ≠ none
  keys : ∀ n x k, s.ns n = some x → ((x.map k).map (·.1)).Nodup
  lens : ∀ n x k, s.ns n = some x → x.num k = (x.map k).length
  fresh : ∀ k n id o, s.Has k n id o → o < s.next
  uniq : ∀ k n id k' n' id' o, s.Has k n id o → s.Has k' n' id' o → k = k' ∧ n = n' ∧ id = id'
  tot : ∀ k, s.num k = ((s.names.map (s.cnt k)).sum : Nat)

theorem sum_upd (f g : Nat → Nat) (n : Nat) : ∀ (l : List Nat), l.Nodup → n ∈ l → (∀ m ∈ l, m ≠ n → g m = f m) →
    (l.map g).sum + f n = (l.map f).sum + g n := by
  intro l
  induction l with
  | nil => intro _ h; simp at h
  | cons a l ih =>
    intro hn hm hg
    rw [List.nodup_cons] at hn
    simp only [List.map_cons, List.sum_cons]
    by_cases h : a = n
    · subst h
      have : l.map g = l.map f := List.map_congr_left fun m hm => hg m (by simp [hm]) (fun e => hn.1 (e ▸ hm))
      rw [this]; omega
    · have := ih hn.2 (by simpa [Ne.symm h] using hm) (fun m hm => hg m (by simp [hm]))
      have h2 := hg a (by simp) h
      omega

theorem tr_sum_erase (f : Nat → Nat) (n : Nat) (l : List Nat) (h : n ∈ l) : (l.map f).sum = f n + ((l.erase n).map f).sum := by
  have := (List.perm_cons_erase h).map f |>.sum_nat
  simpa using this

theorem find_key {l : List (Nat × Nat)} (hn : (l.map (·.1)).Nodup) (id o : Nat) :
    l.find? (·.1 == id) = some (id, o) ↔ (id, o) ∈ l := by
  induction l with
  | nil => simp
  | cons a l ih =>
    obtain ⟨i, p⟩ := a
    simp only [List.map_cons, List.nodup_cons] at hn
    by_cases h : i = id
    · subst h
      simp only [List.find?_cons, beq_self_eq_true, Option.some.injEq, Prod.mk.injEq, true_and, List.mem_cons]
      constructor
      · intro h; exact .inl h.symm
      · rintro (h | h)
        · exact h.symm
        · exact absurd (List.mem_map.2 ⟨_, h, rfl⟩) hn.1
    · have hb : (i == id) = false := by simpa using h
      rw [List.find?_cons]
      simp only [hb]
      rw [ih hn.2]
      simp only [List.mem_cons, Prod.mk.injEq]
      constructor
      · intro h; exact .inr h
      · rintro (⟨h', _⟩ | h')
        · exact absurd h'.symm h
        · exact h'

theorem find_key_none {l : List (Nat × Nat)} (id : Nat) : l.find? (·.1 == id) = none ↔ ∀ o, (id, o) ∉ l := by
  rw [List.find?_eq_none]
  constructor
  · intro h o ho; exact h _ ho (by simp)
  · rintro h ⟨i, o⟩ ho hb
    simp only [beq_iff_eq] at hb
    subst hb
    exact h o ho

theorem find_key_fst {l : List (Nat × Nat)} {id : Nat} {e : Nat × Nat} (h : l.find? (·.1 == id) = some e) : e = (id, e.2) ∧ e ∈ l := by
  have := List.find?_some h
  simp only [beq_iff_eq] at this
  exact ⟨by rw [← this], List.mem_of_find?_eq_some h⟩

/-- Replacing one namespace object. -/
theorem TrCtl.WF.put {s : TrCtl} (h : s.WF) {n : Nat} {x x' : TrNs} (hx : s.ns n = some x)
    (hk : ∀ k, ((x'.map k).map (·.1)).Nodup) (hl : ∀ k, x'.num k = (x'.map k).length)
    {num : RKind → Int} {next : Nat} (hnext : s.next ≤ next) (hnum : ∀ k, num k = s.num k + (x'.map k).length - (x.map k).length)
    (hm : ∀ k e, e ∈ x'.map k → e ∈ x.map k ∨ (e.2 = s.next ∧ s.next < next))
    (hm2 : ∀ k k' e e', e ∈ x'.map k → e' ∈ x'.map k' → e.2 = s.next → e'.2 = s.next → k = k' ∧ e.1 = e'.1) :
    TrCtl.WF { s.put n x' with num := num, next := next } := by
  have hns : ∀ m, (s.put n x').ns m = if m = n then some x' else s.ns m := fun _ => rfl
  have hin : n ∈ s.names := (h.dom n).2 (by rw [hx]; simp)
  have hhas : ∀ k m id o, TrCtl.Has { s.put n x' with num := num, next := next } k m id o →
      (s.Has k m id o) ∨ (m = n ∧ (id, o) ∈ x'.map k ∧ o = s.next ∧ s.next < next) := by
    rintro k m id o ⟨y, hy, hmem⟩
    dsimp only at hy
    rw [hns] at hy
    by_cases g : m = n
    · rw [if_pos g] at hy
      cases hy
      subst g
      rcases hm k _ hmem with h1 | ⟨h1, h2⟩
      · exact .inl ⟨x, hx, h1⟩
      · exact .inr ⟨rfl, hmem, h1, h2⟩
    · rw [if_neg g] at hy
      exact .inl ⟨y, hy, hmem⟩
  refine ⟨h.names, fun m => ?_, fun m y k hy => ?_, fun m y k hy => ?_, fun k m id o ho => ?_, ?_, fun k => ?_⟩
  · dsimp only
    rw [hns]
    by_cases g : m = n
    · rw [if_pos g, g]; simp [hin, TrCtl.put]
    · rw [if_neg g]; exact h.dom m
  · dsimp only at hy
    rw [hns] at hy
    by_cases g : m = n
    · rw [if_pos g] at hy; cases hy; exact hk k
    · rw [if_neg g] at hy; exact h.keys m y k hy
  · dsimp only at hy
    rw [hns] at hy
    by_cases g : m = n
    · rw [if_pos g] at hy; cases hy; exact hl k
    · rw [if_neg g] at hy; exact h.lens m y k hy
  · dsimp only
    rcases hhas k m id o ho with h1 | ⟨_, _, h1, h2⟩
    · have := h.fresh _ _ _ _ h1; omega
    · omega
  · intro k m id k' m' id' o h1 h2
    rcases hhas _ _ _ _ h1 with g1 | ⟨rfl, g1, rfl, _⟩ <;> rcases hhas _ _ _ _ h2 with g2 | ⟨rfl, g2, e2, _⟩
    · exact h.uniq _ _ _ _ _ _ _ g1 g2
    · have := h.fresh _ _ _ _ g1; omega
    · have := h.fresh _ _ _ _ g2; omega
    · obtain ⟨rfl, h3⟩ := hm2 _ _ _ _ g1 g2 rfl rfl
      exact ⟨rfl, rfl, h3⟩
  · show num k = ((s.names.map (TrCtl.cnt { s.put n x' with num := num, next := next } k)).sum : Nat)
    rw [hnum, h.tot k]
    have e1 := sum_upd (s.cnt k) (TrCtl.cnt { s.put n x' with num := num, next := next } k) n s.names h.names hin
      (fun m _ hne => by simp [TrCtl.cnt, TrCtl.put, hne])
    have e2 : s.cnt k n = (x.map k).length := by unfold TrCtl.cnt; rw [hx]
    have e3 : TrCtl.cnt { s.put n x' with num := num, next := next } k n = (x'.map k).length := by
      simp [TrCtl.cnt, TrCtl.put]
    omega

/-- Adding a namespace. -/
theorem TrCtl.WF.newNs {s : TrCtl} (h : s.WF) {n : Nat} (hx : s.ns n = none) : (s.newNs n).WF := by
  have hout : n ∉ s.names := fun g => (h.dom n).1 g hx
  have hns : ∀ m, (s.newNs n).ns m = if m = n then some { max := s.nsMax } else s.ns m := fun _ => rfl
  have hhas : ∀ k m id o, (s.newNs n).Has k m id o → s.Has k m id o := by
    rintro k m id o ⟨y, hy, hmem⟩
    rw [hns] at hy
    by_cases g : m = n
    · rw [if_pos g] at hy; cases hy; simp at hmem
    · rw [if_neg g] at hy; exact ⟨y, hy, hmem⟩
  refine ⟨?_, fun m => ?_, fun m y k hy => ?_, fun m y k hy => ?_, fun k m id o ho => h.fresh _ _ _ _ (hhas _ _ _ _ ho),
    fun k m id k' m' id' o h1 h2 => h.uniq _ _ _ _ _ _ _ (hhas _ _ _ _ h1) (hhas _ _ _ _ h2), fun k => ?_⟩
  · show (s.names ++ [n]).Nodup
    rw [List.nodup_append]
    exact ⟨h.names, by simp, by rintro a ha b hb rfl; simp at hb; subst hb; exact hout ha⟩
  · show m ∈ s.names ++ [n] ↔ _
    rw [hns]
    by_cases g : m = n
    · simp [g]
    · rw [if_neg g]; simpa [g] using h.dom m
  · rw [hns] at hy
    by_cases g : m = n
    · rw [if_pos g] at hy; cases hy; simp
    · rw [if_neg g] at hy; exact h.keys m y k hy
  · rw [hns] at hy
    by_cases g : m = n
    · rw [if_pos g] at hy; cases hy; simp
    · rw [if_neg g] at hy; exact h.lens m y k hy
  · show s.num k = (((s.names ++ [n]).map ((s.newNs n).cnt k)).sum : Nat)
    rw [h.tot k, List.map_append, List.sum_append]
    have e1 : s.names.map ((s.newNs n).cnt k) = s.names.map (s.cnt k) :=
      List.map_congr_left fun m hm => by
        have : m ≠ n := fun e => hout (e ▸ hm)
        simp [TrCtl.cnt, TrCtl.newNs, this]
    rw [e1]
    simp [TrCtl.cnt, TrCtl.newNs]

theorem TrCtl.newNs_has {s : TrCtl} {n : Nat} (hx : s.ns n = none) (k : RKind) (m id o : Nat) :
    (s.newNs n).Has k m id o ↔ s.Has k m id o := by
  unfold TrCtl.Has
  simp only [TrCtl.newNs]
  by_cases g : m = n
  · subst g; simp [hx]
  · simp [g]

theorem TrCtl.put_has {s : TrCtl} {n : Nat} {x' : TrNs} {num : RKind → Int} {next : Nat} (k : RKind) (m id o : Nat) :
    TrCtl.Has { s.put n x' with num := num, next := next } k m id o ↔ if m = n then (id, o) ∈ x'.map k else s.Has k m id o := by
  unfold TrCtl.Has
  simp only [TrCtl.put]
  by_cases g : m = n
  · simp [g]
  · simp [g]


theorem tr_updK_same {α : Type} (f : RKind → α) (k : RKind) (v : α) : updK f k v k = v := by simp [updK]

theorem tr_updK_other {α : Type} (f : RKind → α) {k k' : RKind} (v : α) (h : k' ≠ k) : updK f k v k' = f k' := by simp [updK, h]

/-- Removing the entries that do not satisfy `p` from one map. -/
theorem TrCtl.WF.filter {s : TrCtl} (h : s.WF) {n : Nat} {x : TrNs} (hx : s.ns n = some x) (k : RKind) (p : Nat × Nat → Bool) (d : Int)
    (hd : d = (x.map k).length - ((x.map k).filter p).length) :
    TrCtl.WF { s.put n { x with map := updK x.map k ((x.map k).filter p), num := updK x.num k (x.num k - d) } with
      num := updK s.num k (s.num k - d) } := by
  refine h.put (next := s.next) hx (fun k' => ?_) (fun k' => ?_) (Nat.le_refl _) (fun k' => ?_) (fun k' e he => .inl ?_)
    (fun k' k'' e e' he he' h1 h2 => ?_)
  · by_cases g : k' = k
    · subst g; simp only [tr_updK_same]
      exact (h.keys n x k' hx).sublist ((List.filter_sublist).map _)
    · simp only [tr_updK_other _ _ g]; exact h.keys n x k' hx
  · by_cases g : k' = k
    · subst g; simp only [tr_updK_same]; have := h.lens n x k' hx; omega
    · simp only [tr_updK_other _ _ g]; exact h.lens n x k' hx
  · by_cases g : k' = k
    · subst g; simp only [tr_updK_same]; omega
    · simp only [tr_updK_other _ _ g]; omega
  · by_cases g : k' = k
    · subst g; simp only [tr_updK_same] at he; exact (List.mem_filter.1 he).1
    · simp only [tr_updK_other _ _ g] at he; exact he
  · exfalso
    have key : ∀ k', ∀ e ∈ updK x.map k ((x.map k).filter p) k', e ∈ x.map k' := by
      intro k' e he
      by_cases g : k' = k
      · subst g; simp only [tr_updK_same] at he; exact (List.mem_filter.1 he).1
      · simp only [tr_updK_other _ _ g] at he; exact he
    have := h.fresh k' n e.1 e.2 ⟨x, hx, key _ _ he⟩
    omega

theorem filter_has {s : TrCtl} {n : Nat} {x : TrNs} (hx : s.ns n = some x) (k : RKind) (p : Nat × Nat → Bool) (num num' : RKind → Int)
    (k' : RKind) (m id o : Nat) :
    TrCtl.Has { s.put n { x with map := updK x.map k ((x.map k).filter p), num := num' } with num := num } k' m id o ↔
      s.Has k' m id o ∧ ¬ (k' = k ∧ m = n ∧ p (id, o) = false) := by
  have := TrCtl.put_has (s := s) (n := n) (x' := { x with map := updK x.map k ((x.map k).filter p), num := num' }) (num := num)
    (next := s.next) k' m id o
  refine this.trans ?_
  by_cases g : m = n
  · subst g
    rw [if_pos rfl]
    have hh : s.Has k' m id o ↔ (id, o) ∈ x.map k' := by unfold TrCtl.Has; rw [hx]; simp
    rw [hh]
    by_cases g2 : k' = k
    · subst g2
      simp only [tr_updK_same, List.mem_filter, true_and]
      constructor
      · rintro ⟨h1, h2⟩; exact ⟨h1, by simp [h2]⟩
      · rintro ⟨h1, h2⟩; exact ⟨h1, by simpa using h2⟩
    · simp only [tr_updK_other _ _ g2]; simp [g2]
  · rw [if_neg g]; simp [g]

theorem filter_ne_length {l : List (Nat × Nat)} (hn : (l.map (·.1)).Nodup) {id o : Nat} (hm : (id, o) ∈ l) :
    (l.filter (·.1 != id)).length + 1 = l.length := by
  induction l with
  | nil => simp at hm
  | cons a l ih =>
    simp only [List.map_cons, List.nodup_cons] at hn
    by_cases g : a.1 = id
    · have : l.filter (·.1 != id) = l := by
        rw [List.filter_eq_self]
        intro b hb
        simp only [bne_iff_ne, ne_eq]
        intro e
        exact hn.1 (List.mem_map.2 ⟨b, hb, by rw [e, g]⟩)
      rw [List.filter_cons_of_neg (by simp [g]), this]
      rfl
    · rw [List.filter_cons_of_pos (by simp [g])]
      have hm' : (id, o) ∈ l := by
        rcases List.mem_cons.1 hm with e | e
        · rw [← e] at g; exact absurd rfl g
        · exact e
      simp only [List.length_cons]
      rw [ih hn.2 hm']

/-- What a call does to the objects the controller has. -/
def TrCtl.Effect (s s' : TrCtl) (e : TrOp × TrRes) : Prop :=
  ∀ k n id o, s'.Has k n id o ↔ TrMakes e k n id o ∨ (s.Has k n id o ∧ ¬ TrKills e k n id o)

theorem effect_same {s : TrCtl} {e : TrOp × TrRes} (h1 : ∀ k n id o, ¬ TrMakes e k n id o)
    (h2 : ∀ k n id o, s.Has k n id o → ¬ TrKills e k n id o) : s.Effect s e := by
  intro k n id o
  constructor
  · intro h; exact .inr ⟨h, h2 _ _ _ _ h⟩
  · rintro (h | h)
    · exact absurd h (h1 _ _ _ _)
    · exact h.1

/-- `createSender` when the namespace exists. -/
theorem create_in {s : TrCtl} (h : s.WF) (k : RKind) {n : Nat} (id : Nat) {x : TrNs} (hx : s.ns n = some x) :
    ∃ s' c o, (if !s.hasQuota k (some x) then (s, TrRes.made eQUOTA_EXCEEDED none)
      else match x.create k id s.next with
        | (x', c, o) =>
          let s2 := (s.put n x')
          if c = eOK then ({ s2 with num := updK s.num k (s.num k + 1), next := s.next + 1 }, .made c o)
          else (s2, .made c o)) = (s', .made c o) ∧ s'.WF ∧ s.Effect s' (.create k n id, .made c o) ∧
      ((c = eOK ∧ o = some s.next ∧ (∀ p, ¬ s.Has k n id p)) ∨
       (c = eALREADY_EXISTS ∧ ∃ p, o = some p ∧ s.Has k n id p) ∨ (c = eQUOTA_EXCEEDED ∧ o = none)) ∧
      (s.hasQuota k (some x) = true → (∃ p, s.Has k n id p) → c = eALREADY_EXISTS) ∧
      (s.hasQuota k (some x) = true → (∀ p, ¬ s.Has k n id p) → c = eOK) := by
  have hid : s.put n x = s := by
    unfold TrCtl.put
    have : (fun m => if m = n then some x else s.ns m) = s.ns := by
      funext m; by_cases g : m = n
      · rw [if_pos g, g, hx]
      · rw [if_neg g]
    rw [this]
  have hh : ∀ p, s.Has k n id p ↔ (id, p) ∈ x.map k := fun p => by unfold TrCtl.Has; rw [hx]; simp
  by_cases hq : s.hasQuota k (some x) = true
  · rw [if_neg (by simp [hq])]
    rcases hf : (x.map k).find? (·.1 == id) with _ | e
    · have hnone := (find_key_none (l := x.map k) id).1 hf
      have hxq : x.hasQuota k = true := by
        unfold TrCtl.hasQuota at hq
        split at hq
        · simp at hq
        · exact hq
      have hc : x.create k id s.next = ({ x with map := updK x.map k ((id, s.next) :: x.map k), num := updK x.num k (x.num k + 1) },
          eOK, some s.next) := by
        unfold TrNs.create; rw [hf]; simp [hxq]
      rw [hc]
      simp only [if_true]
      refine ⟨_, _, _, rfl, ?_, ?_, .inl ⟨rfl, rfl, fun p hp => hnone p ((hh p).1 hp)⟩, ?_, fun _ _ => rfl⟩
      · refine h.put hx (fun k' => ?_) (fun k' => ?_) (by omega) (fun k' => ?_) (fun k' e he => ?_) (fun k' k'' e e' he he' h1 h2 => ?_)
        · by_cases g : k' = k
          · subst g
            simp only [tr_updK_same, List.map_cons, List.nodup_cons]
            refine ⟨fun hm => ?_, h.keys n x k' hx⟩
            obtain ⟨⟨i, p⟩, h1, h2⟩ := List.mem_map.1 hm
            dsimp only at h2
            exact hnone p (h2 ▸ h1)
          · simp only [tr_updK_other _ _ g]; exact h.keys n x k' hx
        · by_cases g : k' = k
          · subst g; simp only [tr_updK_same, List.length_cons]; have := h.lens n x k' hx; omega
          · simp only [tr_updK_other _ _ g]; exact h.lens n x k' hx
        · by_cases g : k' = k
          · subst g; simp only [tr_updK_same, List.length_cons]; omega
          · simp only [tr_updK_other _ _ g]; omega
        · by_cases g : k' = k
          · subst g
            simp only [tr_updK_same, List.mem_cons] at he
            rcases he with rfl | he
            · exact .inr ⟨rfl, by omega⟩
            · exact .inl he
          · simp only [tr_updK_other _ _ g] at he; exact .inl he
        · have key : ∀ k', ∀ e ∈ updK x.map k ((id, s.next) :: x.map k) k', e.2 = s.next → k' = k ∧ e.1 = id := by
            intro k' e he h1
            by_cases g : k' = k
            · subst g
              simp only [tr_updK_same, List.mem_cons] at he
              rcases he with rfl | he
              · exact ⟨rfl, rfl⟩
              · have := h.fresh k' n e.1 e.2 ⟨x, hx, he⟩; omega
            · simp only [tr_updK_other _ _ g] at he
              have := h.fresh k' n e.1 e.2 ⟨x, hx, he⟩; omega
          obtain ⟨a1, a2⟩ := key _ _ he h1
          obtain ⟨b1, b2⟩ := key _ _ he' h2
          exact ⟨by rw [a1, b1], by rw [a2, b2]⟩
      · intro k' m i o
        refine TrCtl.put_has k' m i o |>.trans ?_
        have hmk : TrMakes (TrOp.create k n id, TrRes.made eOK (some s.next)) k' m i o ↔ k' = k ∧ m = n ∧ i = id ∧ o = s.next := by
          unfold TrMakes
          simp only [Prod.mk.injEq, TrOp.create.injEq, TrRes.made.injEq, Option.some.injEq, true_and]
          constructor
          · rintro ⟨⟨rfl, rfl, rfl⟩, rfl⟩; exact ⟨rfl, rfl, rfl, rfl⟩
          · rintro ⟨rfl, rfl, rfl, rfl⟩; exact ⟨⟨rfl, rfl, rfl⟩, rfl⟩
        have hki : ¬ TrKills (TrOp.create k n id, TrRes.made eOK (some s.next)) k' m i o := by simp [TrKills]
        rw [hmk]
        by_cases g : m = n
        · subst g
          rw [if_pos rfl]
          have hh' : s.Has k' m i o ↔ (i, o) ∈ x.map k' := by unfold TrCtl.Has; rw [hx]; simp
          by_cases g2 : k' = k
          · subst g2; simp only [tr_updK_same, List.mem_cons, Prod.mk.injEq, hh', true_and]
            constructor
            · rintro (h | h)
              · exact .inl h
              · exact .inr ⟨h, hki⟩
            · rintro (h | h)
              · exact .inl h
              · exact .inr h.1
          · simp only [tr_updK_other _ _ g2, g2, false_and, false_or, hh']
            exact ⟨fun h => ⟨h, hki⟩, fun h => h.1⟩
        · rw [if_neg g]; simp only [g, false_and, and_false, false_or]
          exact ⟨fun h => ⟨h, hki⟩, fun h => h.1⟩
      · rintro _ ⟨p, hp⟩; exact absurd ((hh p).1 hp) (hnone p)
    · obtain ⟨he, hmem⟩ := find_key_fst hf
      have hc : x.create k id s.next = (x, eALREADY_EXISTS, some e.2) := by
        unfold TrNs.create; rw [hf]
      rw [hc]
      simp only
      rw [if_neg (by decide), hid]
      have hp : s.Has k n id e.2 := (hh _).2 (he ▸ hmem)
      refine ⟨_, _, _, rfl, h, effect_same (fun k' m i o => ?_) (fun k' m i o _ => by simp [TrKills]),
        .inr (.inl ⟨rfl, _, rfl, hp⟩), fun _ _ => rfl, fun _ hn => absurd hp (hn _)⟩
      unfold TrMakes
      simp only [Prod.mk.injEq, TrRes.made.injEq]
      rintro ⟨_, h1, _⟩
      exact absurd h1 (by decide)
  · rw [if_pos (by simp [hq])]
    refine ⟨_, _, _, rfl, h, effect_same (fun k' m i o => ?_) (fun k' m i o _ => by simp [TrKills]), .inr (.inr ⟨rfl, rfl⟩),
      fun h => absurd h hq, fun h => absurd h hq⟩
    unfold TrMakes
    simp

/-- What `createSender` returns. -/
structure TrCreated (s : TrCtl) (k : RKind) (n id : Nat) (c : ErrCode) (o : Option Nat) : Prop where
  cases : (c = eOK ∧ o = some s.next ∧ (∀ p, ¬ s.Has k n id p)) ∨ (c = eALREADY_EXISTS ∧ ∃ p, o = some p ∧ s.Has k n id p) ∨
    (c = eQUOTA_EXCEEDED ∧ o = none) ∨ (c = eNOT_FOUND ∧ o = none ∧ s.strict = true ∧ s.ns n = none)
  exists_ : s.hasQuota k (s.ns n) = true → (∃ p, s.Has k n id p) → c = eALREADY_EXISTS
  new : s.hasQuota k (s.ns n) = true → (∀ p, ¬ s.Has k n id p) → (s.strict = false ∨ s.ns n ≠ none) → c = eOK

theorem newNs_quota {s : TrCtl} {k : RKind} : s.hasQuota k none = true → s.hasQuota k (some { max := s.nsMax }) = true := by
  unfold TrCtl.hasQuota TrNs.hasQuota
  split
  · simp
  · intro _
    simp only [Bool.not_eq_true', Bool.and_eq_false_iff, decide_eq_false_iff_not]
    omega

theorem tr_create_spec {s : TrCtl} (h : s.WF) (k : RKind) (n id : Nat) :
    ∃ s' c o, s.create k n id = (s', .made c o) ∧ s'.WF ∧ s.Effect s' (.create k n id, .made c o) ∧ TrCreated s k n id c o := by
  unfold TrCtl.create
  by_cases g : s.ns n = none ∧ s.strict
  · rw [if_pos g]
    have hno : ∀ p, ¬ s.Has k n id p := by rintro p ⟨x, hx, _⟩; rw [g.1] at hx; cases hx
    refine ⟨_, _, _, rfl, h, effect_same (fun k' m i o => by simp [TrMakes]) (fun k' m i o _ => by simp [TrKills]),
      ⟨.inr (.inr (.inr ⟨rfl, rfl, g.2, g.1⟩)), ?_, ?_⟩⟩
    · rintro _ ⟨p, hp⟩; exact absurd hp (hno p)
    · rintro _ _ (h1 | h1)
      · have := g.2; rw [h1] at this; cases this
      · exact absurd g.1 h1
  · rw [if_neg g]
    by_cases hn : s.ns n = none
    · simp only [if_pos hn]
      have hx : (s.newNs n).ns n = some { max := s.nsMax } := by simp [TrCtl.newNs]
      obtain ⟨s', c, o, e, hw, heff, hc, he1, he2⟩ := create_in (h.newNs hn) k id hx
      rw [hx]
      refine ⟨s', c, o, e, hw, fun k' m i o' => ?_, ⟨?_, ?_, ?_⟩⟩
      · rw [heff k' m i o', TrCtl.newNs_has hn]
      · rcases hc with ⟨h1, h2, h3⟩ | ⟨h1, p, h2, h3⟩ | ⟨h1, h2⟩
        · exact .inl ⟨h1, h2, fun p hp => h3 p ((TrCtl.newNs_has hn _ _ _ _).2 hp)⟩
        · exact .inr (.inl ⟨h1, p, h2, (TrCtl.newNs_has hn _ _ _ _).1 h3⟩)
        · exact .inr (.inr (.inl ⟨h1, h2⟩))
      · rintro _ ⟨p, x, hx', _⟩; rw [hn] at hx'; cases hx'
      · intro hq hno _
        refine he2 ?_ fun p hp => hno p ((TrCtl.newNs_has hn _ _ _ _).1 hp)
        rw [hn] at hq
        exact newNs_quota hq
    · simp only [if_neg hn]
      rcases hx : s.ns n with _ | x
      · exact absurd hx hn
      · obtain ⟨s', c, o, e, hw, heff, hc, he1, he2⟩ := create_in h k id hx
        refine ⟨s', c, o, e, hw, heff, ⟨?_, ?_, ?_⟩⟩
        · rcases hc with h1 | h1 | h1
          · exact .inl h1
          · exact .inr (.inl h1)
          · exact .inr (.inr (.inl h1))
        · rw [hx]; exact he1
        · rw [hx]; intro a b _; exact he2 a b

/-- Every call succeeds and does what it should to the objects. -/
theorem step_spec {s : TrCtl} (h : s.WF) (op : TrOp) :
    ∃ s' r, s.step op = .ok (s', r) ∧ s'.WF ∧ s.Effect s' (op, r) := by
  cases op with
  | create k n id =>
    obtain ⟨s', c, o, e, hw, heff, _⟩ := tr_create_spec h k n id
    exact ⟨s', .made c o, by simp only [TrCtl.step]; rw [e], hw, heff⟩
  | release k n id =>
    simp only [TrCtl.step]
    rcases hx : s.ns n with _ | x
    · exact ⟨_, _, rfl, h, effect_same (fun k' m i o => by simp [TrMakes]) (fun k' m i o _ => by simp [TrKills, eERROR, eOK])⟩
    · dsimp only
      rcases hf : (x.map k).find? (·.1 == id) with _ | e
      · have hc : x.release k id = (x, eNOT_FOUND) := by unfold TrNs.release; rw [hf]
        rw [hc, if_neg (show ¬ eNOT_FOUND = eOK by decide)]
        exact ⟨_, _, rfl, h, effect_same (fun k' m i o => by simp [TrMakes]) (fun k' m i o _ => by simp [TrKills, eERROR, eOK])⟩
      · have hc : x.release k id = ({ x with map := updK x.map k ((x.map k).filter (·.1 != id)), num := updK x.num k (x.num k - 1) }, eOK) := by
          unfold TrNs.release; rw [hf]
        rw [hc, if_pos rfl]
        obtain ⟨he, hmem⟩ := find_key_fst hf
        have hlen := filter_ne_length (h.keys n x k hx) (he ▸ hmem)
        refine ⟨_, _, rfl, h.filter hx k (·.1 != id) 1 (by omega), fun k' m i o => ?_⟩
        refine (filter_has hx k (·.1 != id) _ _ k' m i o).trans ?_
        simp only [TrMakes, TrKills, Prod.mk.injEq, reduceCtorEq, false_and, false_or, true_and]
        constructor
        · rintro ⟨h1, h2⟩
          refine ⟨h1, ?_⟩
          rintro ⟨rfl, rfl, rfl⟩
          exact h2 ⟨rfl, rfl, by simp⟩
        · rintro ⟨h1, h2⟩
          refine ⟨h1, ?_⟩
          rintro ⟨rfl, rfl, h3⟩
          refine h2 ⟨rfl, rfl, ?_⟩
          have : i = id := by simpa using h3
          exact this.symm
  | releaseAll k n =>
    simp only [TrCtl.step]
    rcases hx : s.ns n with _ | x
    · refine ⟨_, _, rfl, h, effect_same (fun k' m i o => by simp [TrMakes]) ?_⟩
      rintro k' m i o ⟨y, hy, _⟩ ⟨rfl, rfl⟩
      rw [hx] at hy; cases hy
    · simp only [TrNs.releaseAll]
      have hnil : (x.map k).filter (fun _ => false) = [] := by simp
      have hw := h.filter hx k (fun _ => false) (x.map k).length (by rw [hnil]; simp)
      rw [hnil, h.lens n x k hx, Int.sub_self] at hw
      refine ⟨_, _, rfl, hw, fun k' m i o => ?_⟩
      have := filter_has hx k (fun _ => false) (updK s.num k (s.num k - (x.map k).length)) (updK x.num k 0) k' m i o
      rw [hnil] at this
      refine this.trans ?_
      simp only [TrMakes, TrKills, Prod.mk.injEq, reduceCtorEq, false_and, false_or]
      constructor
      · rintro ⟨h1, h2⟩; exact ⟨h1, fun ⟨a, b⟩ => h2 ⟨a.symm, b.symm, trivial⟩⟩
      · rintro ⟨h1, h2⟩; exact ⟨h1, fun ⟨a, b, _⟩ => h2 ⟨a.symm, b.symm⟩⟩
  | releaseStale k n stale =>
    simp only [TrCtl.step]
    rcases hx : s.ns n with _ | x
    · refine ⟨_, _, rfl, h, effect_same (fun k' m i o => by simp [TrMakes]) ?_⟩
      rintro k' m i o ⟨y, hy, _⟩ ⟨rfl, rfl, _⟩
      rw [hx] at hy; cases hy
    · simp only [TrNs.releaseStale]
      have hlen : ∀ l : List (Nat × Nat), ((l.filter fun e => stale e.2).length : Int) = l.length - (l.filter fun e => !stale e.2).length := by
        intro l
        induction l with
        | nil => simp
        | cons a l ih => by_cases g : stale a.2 = true <;> simp [List.filter_cons, g] <;> omega
      refine ⟨_, _, rfl, ?_, fun k' m i o => ?_⟩
      · have := h.filter hx k (fun e => !stale e.2) _ (hlen _)
        rw [List.length_map]
        exact this
      · refine (filter_has hx k (fun e => !stale e.2) _ _ k' m i o).trans ?_
        simp only [TrMakes, TrKills, Prod.mk.injEq, reduceCtorEq, false_and, false_or, Bool.not_eq_false']
        constructor
        · rintro ⟨h1, h2⟩; exact ⟨h1, fun ⟨a, b, c⟩ => h2 ⟨a.symm, b.symm, c⟩⟩
        · rintro ⟨h1, h2⟩; exact ⟨h1, fun ⟨a, b, c⟩ => h2 ⟨a.symm, b.symm, c⟩⟩
  | get k n id =>
    simp only [TrCtl.step]
    split <;> exact ⟨_, _, rfl, h, effect_same (fun k' m i o => by simp [TrMakes]) (fun k' m i o _ => by simp [TrKills])⟩
  | getAll k n =>
    simp only [TrCtl.step]
    split <;> exact ⟨_, _, rfl, h, effect_same (fun k' m i o => by simp [TrMakes]) (fun k' m i o _ => by simp [TrKills])⟩
  | getIds k n =>
    simp only [TrCtl.step]
    split <;> exact ⟨_, _, rfl, h, effect_same (fun k' m i o => by simp [TrMakes]) (fun k' m i o _ => by simp [TrKills])⟩
  | hasQuota k n =>
    exact ⟨_, _, rfl, h, effect_same (fun k' m i o => by simp [TrMakes]) (fun k' m i o _ => by simp [TrKills])⟩
  | counts =>
    exact ⟨_, _, rfl, h, effect_same (fun k' m i o => by simp [TrMakes]) (fun k' m i o _ => by simp [TrKills])⟩
  | register n =>
    simp only [TrCtl.step]
    by_cases hn : s.ns n = none
    · rw [if_pos hn]
      refine ⟨_, _, rfl, h.newNs hn, fun k' m i o => ?_⟩
      rw [TrCtl.newNs_has hn]
      simp [TrMakes, TrKills]
    · rw [if_neg hn]
      exact ⟨_, _, rfl, h, effect_same (fun k' m i o => by simp [TrMakes]) (fun k' m i o _ => by simp [TrKills])⟩
  | deregister n =>
    simp only [TrCtl.step]
    rcases hx : s.ns n with _ | x
    · refine ⟨_, _, rfl, h, effect_same (fun k' m i o => by simp [TrMakes]) ?_⟩
      rintro k' m i o ⟨y, hy, _⟩ rfl
      rw [hx] at hy; cases hy
    · have hin : n ∈ s.names := (h.dom n).2 (by rw [hx]; simp)
      have hhas : ∀ k m id o, TrCtl.Has { s with names := s.names.erase n, ns := fun m => if m = n then none else s.ns m, num := fun k => s.num k - (x.releaseAll k).2 } k m id o ↔ s.Has k m id o ∧ m ≠ n := by
        intro k m id o
        unfold TrCtl.Has
        by_cases g : m = n
        · simp [g]
        · simp [g]
      refine ⟨_, _, rfl, ⟨?_, fun m => ?_, fun m y k hy => ?_, fun m y k hy => ?_, fun k m id o ho => h.fresh _ _ _ _ ((hhas _ _ _ _).1 ho).1,
        fun k m id k' m' id' o h1 h2 => h.uniq _ _ _ _ _ _ _ ((hhas _ _ _ _).1 h1).1 ((hhas _ _ _ _).1 h2).1, fun k => ?_⟩, fun k' m i o => ?_⟩
      · exact h.names.erase n
      · dsimp only
        rw [h.names.mem_erase_iff]
        by_cases g : m = n
        · simp [g]
        · simpa [g] using h.dom m
      · dsimp only at hy
        by_cases g : m = n
        · rw [if_pos g] at hy; cases hy
        · rw [if_neg g] at hy; exact h.keys m y k hy
      · dsimp only at hy
        by_cases g : m = n
        · rw [if_pos g] at hy; cases hy
        · rw [if_neg g] at hy; exact h.lens m y k hy
      · dsimp only
        have e1 := tr_sum_erase (s.cnt k) n s.names hin
        have e2 : s.cnt k n = (x.map k).length := by unfold TrCtl.cnt; rw [hx]
        have e3 : (s.names.erase n).map (TrCtl.cnt { s with names := s.names.erase n, ns := fun m => if m = n then none else s.ns m, num := fun k => s.num k - (x.releaseAll k).2 } k) = (s.names.erase n).map (s.cnt k) :=
          List.map_congr_left fun m hm => by
            have : m ≠ n := ((h.names.mem_erase_iff).1 hm).1
            simp [TrCtl.cnt, this]
        rw [e3, h.tot k]
        simp only [TrNs.releaseAll]
        omega
      · rw [hhas]
        simp only [TrMakes, TrKills, Prod.mk.injEq, reduceCtorEq, false_and, false_or]
        exact ⟨fun ⟨a, b⟩ => ⟨a, fun e => b e.symm⟩, fun ⟨a, b⟩ => ⟨a, fun e => b e.symm⟩⟩
  | shutdown =>
    simp only [TrCtl.step]
    have hz : ∀ k, s.num k - (((s.names.map fun n => match s.ns n with | some x => (x.map k).length | none => 0).sum : Nat) : Int) = 0 := by
      intro k
      have := h.tot k
      unfold TrCtl.cnt at this
      omega
    rw [if_pos ⟨hz _, hz _⟩]
    refine ⟨_, _, rfl, ⟨List.nodup_nil, by simp, by simp, by simp, ?_, ?_, fun k => ?_⟩, fun k' m i o => ?_⟩
    · rintro k m id o ⟨y, hy, _⟩; cases hy
    · rintro k m id k' m' id' o ⟨y, hy, _⟩; cases hy
    · exact (hz k).trans (by simp)
    · simp [TrMakes, TrKills, TrCtl.Has]
  | setMax k v =>
    refine ⟨_, _, rfl, ⟨h.names, h.dom, h.keys, h.lens, h.fresh, h.uniq, h.tot⟩, fun k' m i o => ?_⟩
    simp [TrMakes, TrKills, TrCtl.Has]
  | setNsMax k n v =>
    simp only [TrCtl.step]
    rcases hx : s.ns n with _ | x
    · exact ⟨_, _, rfl, h, effect_same (fun k' m i o => by simp [TrMakes]) (fun k' m i o _ => by simp [TrKills])⟩
    · refine ⟨_, _, rfl, ?_, fun k' m i o => ?_⟩
      · have := h.put (x' := { x with max := updK x.max k v }) (num := s.num) (next := s.next) hx (h.keys n x · hx) (h.lens n x · hx)
          (Nat.le_refl _) (fun k => by dsimp only; omega) (fun k e he => .inl he)
          (fun k' k'' e e' he he' h1 h2 => by have := h.fresh k' n e.1 e.2 ⟨x, hx, he⟩; omega)
        exact this
      · have := TrCtl.put_has (s := s) (n := n) (x' := { x with max := updK x.max k v }) (num := s.num) (next := s.next) k' m i o
        refine this.trans ?_
        simp only [TrMakes, TrKills, Prod.mk.injEq, reduceCtorEq, false_and, false_or, not_false_eq_true, and_true]
        by_cases g : m = n
        · rw [if_pos g]; unfold TrCtl.Has; rw [g, hx]; simp
        · rw [if_neg g]
  | setStrict b =>
    refine ⟨_, _, rfl, ⟨h.names, h.dom, h.keys, h.lens, h.fresh, h.uniq, h.tot⟩, fun k' m i o => ?_⟩
    simp [TrMakes, TrKills, TrCtl.Has]

/-- A controller to which no call was made. -/
def TrCtl.start (max nsMax : RKind → Int) : TrCtl := { max := max, nsMax := nsMax }

theorem start_wf (max nsMax : RKind → Int) : (TrCtl.start max nsMax).WF := by
  refine ⟨List.nodup_nil, by simp [TrCtl.start], by simp [TrCtl.start], by simp [TrCtl.start], ?_, ?_, ?_⟩
  · rintro k n id o ⟨x, hx, _⟩; cases hx
  · rintro k n id k' n' id' o ⟨x, hx, _⟩; cases hx
  · intro k; rfl

theorem trace_inv {max nsMax : RKind → Int} {h : List (TrOp × TrRes)} {s : TrCtl} (t : TrTrace (.start max nsMax) h s) :
    s.WF ∧ ∀ k n id o, TrAlive h k n id o ↔ s.Has k n id o := by
  induction t with
  | nil =>
    refine ⟨start_wf _ _, fun k n id o => ?_⟩
    simp [TrAlive, TrCtl.Has, TrCtl.start]
  | @cons h s s' op r t e ih =>
    obtain ⟨s2, r2, e2, hw, heff⟩ := step_spec ih.1 op
    rw [e] at e2
    cases e2
    refine ⟨hw, fun k n id o => ?_⟩
    rw [heff k n id o, TrAlive, ih.2 k n id o]

/-- All objects of a kind. -/
theorem WF.list {s : TrCtl} (h : s.WF) (k : RKind) :
    ∃ l : List (Nat × Nat × Nat), l.Nodup ∧ (∀ n id o, (n, id, o) ∈ l ↔ s.Has k n id o) ∧ s.num k = l.length := by
  refine ⟨s.names.flatMap fun n => (match s.ns n with | some x => x.map k | none => []).map fun e => (n, e), ?_, ?_, ?_⟩
  · rw [List.nodup_flatMap]
    refine ⟨fun n _ => ?_, ?_⟩
    · refine List.Nodup.map (fun a b e => by simpa using e) ?_
      rcases hx : s.ns n with _ | x
      · exact List.nodup_nil
      · exact List.Nodup.of_map _ (h.keys n x k hx)
    · refine h.names.imp fun {a b} hab => ?_
      rintro ⟨n, e⟩ h1 h2
      simp only [List.mem_map, Prod.mk.injEq] at h1 h2
      obtain ⟨_, _, rfl, _⟩ := h1
      obtain ⟨_, _, rfl, _⟩ := h2
      exact hab rfl
  · intro n id o
    simp only [List.mem_flatMap, List.mem_map, Prod.mk.injEq]
    constructor
    · rintro ⟨m, _, e, he, rfl, rfl⟩
      rcases hx : s.ns m with _ | x
      · rw [hx] at he; simp at he
      · rw [hx] at he; exact ⟨x, hx, he⟩
    · rintro ⟨x, hx, he⟩
      exact ⟨n, (h.dom n).2 (by rw [hx]; simp), (id, o), by rw [hx]; exact he, rfl, rfl⟩
  · rw [h.tot k, List.length_flatMap]
    congr 2
    refine List.map_congr_left fun n _ => ?_
    unfold TrCtl.cnt
    rcases s.ns n with _ | x <;> simp

/-- After the calls `h` the namespace exists: registered or used for a creation, and not removed since. -/
def TrKnown : List (TrOp × TrRes) → Nat → Prop
  | [], _ => False
  | (.register m, _) :: h, n => m = n ∨ TrKnown h n
  | (.create _ m _, .made c _) :: h, n => (m = n ∧ c ≠ eNOT_FOUND) ∨ TrKnown h n
  | (.deregister m, _) :: h, n => m ≠ n ∧ TrKnown h n
  | (.shutdown, _) :: _, _ => False
  | _ :: h, n => TrKnown h n

/-- Whether only registered namespaces may be used after the calls `h`. -/
def TrStrict : List (TrOp × TrRes) → Bool
  | [] => false
  | (.setStrict b, _) :: _ => b
  | _ :: h => TrStrict h

theorem put_known (s : TrCtl) (n : Nat) (x : TrNs) (hx : s.ns n ≠ none) (m : Nat) : (s.put n x).ns m ≠ none ↔ s.ns m ≠ none := by
  unfold TrCtl.put
  by_cases g : m = n
  · subst g; simp [hx]
  · simp [g]

theorem newNs_known (s : TrCtl) (n m : Nat) : (s.newNs n).ns m ≠ none ↔ n = m ∨ s.ns m ≠ none := by
  unfold TrCtl.newNs
  by_cases g : m = n
  · subst g; simp
  · simp [g, Ne.symm g]

theorem create_frame (s : TrCtl) (k : RKind) (n id : Nat) {s' : TrCtl} {r : TrRes} (e : s.create k n id = (s', r)) :
    s'.strict = s.strict ∧ ∃ c o, r = .made c o ∧ (∀ m, s'.ns m ≠ none ↔ (n = m ∧ c ≠ eNOT_FOUND) ∨ s.ns m ≠ none) ∧
      ((c = eOK ∧ o = some s.next ∧ s'.next = s.next + 1) ∨ (c ≠ eOK ∧ s'.next = s.next)) := by
  unfold TrCtl.create at e
  by_cases g : s.ns n = none ∧ s.strict
  · rw [if_pos g] at e
    cases e
    exact ⟨rfl, _, _, rfl, fun m => by simp, .inr ⟨by decide, rfl⟩⟩
  · rw [if_neg g] at e
    have key : ∀ s1 : TrCtl, s1.strict = s.strict → s1.next = s.next → (∀ m, s1.ns m ≠ none ↔ n = m ∨ s.ns m ≠ none) →
        (match s1.ns n with
          | none => (s1, TrRes.made eNOT_FOUND none)
          | some x =>
            if !s1.hasQuota k (some x) then (s1, .made eQUOTA_EXCEEDED none)
            else match x.create k id s1.next with
              | (x', c, o) =>
                if c = eOK then ({ s1.put n x' with num := updK s1.num k (s1.num k + 1), next := s1.next + 1 }, .made c o)
                else (s1.put n x', .made c o)) = (s', r) →
        s'.strict = s.strict ∧ ∃ c o, r = .made c o ∧ (∀ m, s'.ns m ≠ none ↔ (n = m ∧ c ≠ eNOT_FOUND) ∨ s.ns m ≠ none) ∧
          ((c = eOK ∧ o = some s.next ∧ s'.next = s.next + 1) ∨ (c ≠ eOK ∧ s'.next = s.next)) := by
      intro s1 h1 h2 h3 e
      have hn : s1.ns n ≠ none := (h3 n).2 (.inl rfl)
      rcases hx : s1.ns n with _ | x
      · exact absurd hx hn
      · rw [hx] at e
        dsimp only at e
        by_cases hq : (!s1.hasQuota k (some x)) = true
        · rw [if_pos hq] at e
          cases e
          exact ⟨h1, _, _, rfl, fun m => by rw [h3 m]; simp [eQUOTA_EXCEEDED, eNOT_FOUND], .inr ⟨by decide, h2⟩⟩
        · rw [if_neg hq] at e
          rcases hc : x.create k id s1.next with ⟨x', c, o⟩
          rw [hc] at e
          dsimp only at e
          have hcc : (c = eOK ∧ o = some s1.next) ∨ c = eALREADY_EXISTS ∨ c = eQUOTA_EXCEEDED := by
            unfold TrNs.create at hc
            rcases hf : (x.map k).find? (·.1 == id) with _ | p
            · rw [hf] at hc
              dsimp only at hc
              by_cases hq' : (!x.hasQuota k) = true
              · rw [if_pos hq'] at hc; cases hc; exact .inr (.inr rfl)
              · rw [if_neg hq'] at hc; cases hc; exact .inl ⟨rfl, rfl⟩
            · rw [hf] at hc; cases hc; exact .inr (.inl rfl)
          have hk : ∀ m, (s1.put n x').ns m ≠ none ↔ (n = m ∧ c ≠ eNOT_FOUND) ∨ s.ns m ≠ none := by
            intro m
            rw [put_known s1 n x' hn m, h3 m]
            have : c ≠ eNOT_FOUND := by rcases hcc with ⟨h, _⟩ | h | h <;> rw [h] <;> decide
            simp [this]
          by_cases h0 : c = eOK
          · rw [if_pos h0] at e
            cases e
            rcases hcc with ⟨h, ho⟩ | h | h
            · exact ⟨h1, _, _, rfl, hk, .inl ⟨h, h2 ▸ ho, by dsimp only; rw [h2]⟩⟩
            · rw [h0] at h; cases h
            · rw [h0] at h; cases h
          · rw [if_neg h0] at e
            cases e
            exact ⟨h1, _, _, rfl, hk, .inr ⟨h0, h2⟩⟩
    by_cases hn : s.ns n = none
    · simp only [if_pos hn] at e
      exact key (s.newNs n) rfl rfl (newNs_known s n) e
    · simp only [if_neg hn] at e
      refine key s rfl rfl (fun m => ?_) e
      constructor
      · exact .inr
      · rintro (rfl | h)
        · exact hn
        · exact h

theorem step_next {s s' : TrCtl} {op : TrOp} {r : TrRes} (e : s.step op = .ok (s', r)) :
    s.next ≤ s'.next ∧ ∀ k n id o, TrMakes (op, r) k n id o → o = s.next ∧ s'.next = s.next + 1 := by
  unfold TrMakes
  cases op with
  | create k n id =>
    simp only [TrCtl.step, Except.ok.injEq] at e
    obtain ⟨_, c, o, rfl, _, h⟩ := create_frame s k n id e
    refine ⟨by rcases h with h | h <;> omega, fun k' n' id' o' he => ?_⟩
    simp only [Prod.mk.injEq, TrRes.made.injEq] at he
    rcases h with ⟨_, h, h'⟩ | ⟨h, _⟩
    · rw [h] at he; exact ⟨by simpa using he.2.2.symm, h'⟩
    · exact absurd he.2.1 h
  | shutdown =>
    simp only [TrCtl.step] at e
    split at e
    · cases e; exact ⟨Nat.le_refl _, by simp⟩
    · cases e
  | release k n id =>
    simp only [TrCtl.step] at e
    rcases hx : s.ns n with _ | x
    · rw [hx] at e; cases e; exact ⟨Nat.le_refl _, by simp⟩
    · rw [hx] at e
      dsimp only at e
      by_cases g : (x.release k id).2 = eOK
      · rw [if_pos g] at e; cases e; exact ⟨Nat.le_refl _, by simp⟩
      · rw [if_neg g] at e; cases e; exact ⟨Nat.le_refl _, by simp⟩
  | register n =>
    simp only [TrCtl.step] at e
    by_cases g : s.ns n = none
    · rw [if_pos g] at e; cases e; exact ⟨Nat.le_refl _, by simp⟩
    · rw [if_neg g] at e; cases e; exact ⟨Nat.le_refl _, by simp⟩
  | hasQuota k n => simp only [TrCtl.step] at e; cases e; exact ⟨Nat.le_refl _, by simp⟩
  | counts => simp only [TrCtl.step] at e; cases e; exact ⟨Nat.le_refl _, by simp⟩
  | setMax k v => simp only [TrCtl.step] at e; cases e; exact ⟨Nat.le_refl _, by simp⟩
  | setStrict b => simp only [TrCtl.step] at e; cases e; exact ⟨Nat.le_refl _, by simp⟩
  | releaseAll k n =>
    simp only [TrCtl.step] at e
    rcases hx : s.ns n with _ | x <;> rw [hx] at e <;> cases e <;> exact ⟨Nat.le_refl _, by simp⟩
  | releaseStale k n st =>
    simp only [TrCtl.step] at e
    rcases hx : s.ns n with _ | x <;> rw [hx] at e <;> cases e <;> exact ⟨Nat.le_refl _, by simp⟩
  | get k n id =>
    simp only [TrCtl.step] at e
    rcases hx : s.ns n with _ | x <;> rw [hx] at e <;> cases e <;> exact ⟨Nat.le_refl _, by simp⟩
  | getAll k n =>
    simp only [TrCtl.step] at e
    rcases hx : s.ns n with _ | x <;> rw [hx] at e <;> cases e <;> exact ⟨Nat.le_refl _, by simp⟩
  | getIds k n =>
    simp only [TrCtl.step] at e
    rcases hx : s.ns n with _ | x <;> rw [hx] at e <;> cases e <;> exact ⟨Nat.le_refl _, by simp⟩
  | deregister n =>
    simp only [TrCtl.step] at e
    rcases hx : s.ns n with _ | x <;> rw [hx] at e <;> cases e <;> exact ⟨Nat.le_refl _, by simp⟩
  | setNsMax k n v =>
    simp only [TrCtl.step] at e
    rcases hx : s.ns n with _ | x <;> rw [hx] at e <;> cases e <;> exact ⟨Nat.le_refl _, by simp⟩

theorem step_known {s s' : TrCtl} {op : TrOp} {r : TrRes} {h : List (TrOp × TrRes)} (e : s.step op = .ok (s', r))
    (hk : ∀ n, TrKnown h n ↔ s.ns n ≠ none) (hs : TrStrict h = s.strict) :
    (∀ n, TrKnown ((op, r) :: h) n ↔ s'.ns n ≠ none) ∧ TrStrict ((op, r) :: h) = s'.strict := by
  cases op with
  | create k n id =>
    simp only [TrCtl.step, Except.ok.injEq] at e
    obtain ⟨h1, c, o, rfl, h2, _⟩ := create_frame s k n id e
    exact ⟨fun m => by rw [h2 m, TrKnown, hk], by rw [TrStrict, hs, h1]; simp⟩
  | shutdown =>
    simp only [TrCtl.step] at e
    split at e
    · cases e; exact ⟨fun m => by simp [TrKnown], by simpa [TrStrict] using hs⟩
    · cases e
  | release k n id =>
    simp only [TrCtl.step] at e
    rcases hx : s.ns n with _ | x
    · rw [hx] at e; cases e; exact ⟨fun m => by simpa [TrKnown] using hk m, by simpa [TrStrict] using hs⟩
    · rw [hx] at e
      dsimp only at e
      by_cases g : (x.release k id).2 = eOK
      · rw [if_pos g] at e; cases e
        refine ⟨fun m => ?_, by simpa [TrStrict, TrCtl.put] using hs⟩
        have := put_known s n (x.release k id).1 (by rw [hx]; simp) m
        simpa [TrKnown] using (hk m).trans this.symm
      · rw [if_neg g] at e; cases e; exact ⟨fun m => by simpa [TrKnown] using hk m, by simpa [TrStrict] using hs⟩
  | register n =>
    simp only [TrCtl.step] at e
    by_cases g : s.ns n = none
    · rw [if_pos g] at e; cases e
      exact ⟨fun m => by rw [newNs_known, TrKnown, hk], by simpa [TrStrict, TrCtl.newNs] using hs⟩
    · rw [if_neg g] at e; cases e
      refine ⟨fun m => ?_, by simpa [TrStrict] using hs⟩
      rw [TrKnown, hk]
      constructor
      · rintro (rfl | h)
        · exact g
        · exact h
      · exact .inr
  | hasQuota k n => simp only [TrCtl.step] at e; cases e; exact ⟨fun m => by simpa [TrKnown] using hk m, by simpa [TrStrict] using hs⟩
  | counts => simp only [TrCtl.step] at e; cases e; exact ⟨fun m => by simpa [TrKnown] using hk m, by simpa [TrStrict] using hs⟩
  | setMax k v => simp only [TrCtl.step] at e; cases e; exact ⟨fun m => by simpa [TrKnown] using hk m, by simpa [TrStrict] using hs⟩
  | setStrict b => simp only [TrCtl.step] at e; cases e; exact ⟨fun m => by simpa [TrKnown] using hk m, by simp [TrStrict]⟩
  | releaseAll k n =>
    simp only [TrCtl.step] at e
    rcases hx : s.ns n with _ | x
    · rw [hx] at e; cases e; exact ⟨fun m => by simpa [TrKnown] using hk m, by simpa [TrStrict] using hs⟩
    · rw [hx] at e; cases e
      refine ⟨fun m => ?_, by simpa [TrStrict, TrCtl.put] using hs⟩
      have := put_known s n (x.releaseAll k).1 (by rw [hx]; simp) m
      simpa [TrKnown] using (hk m).trans this.symm
  | releaseStale k n st =>
    simp only [TrCtl.step] at e
    rcases hx : s.ns n with _ | x
    · rw [hx] at e; cases e; exact ⟨fun m => by simpa [TrKnown] using hk m, by simpa [TrStrict] using hs⟩
    · rw [hx] at e; cases e
      refine ⟨fun m => ?_, by simpa [TrStrict, TrCtl.put] using hs⟩
      have := put_known s n (x.releaseStale k st).1 (by rw [hx]; simp) m
      simpa [TrKnown] using (hk m).trans this.symm
  | get k n id =>
    simp only [TrCtl.step] at e
    rcases hx : s.ns n with _ | x <;> rw [hx] at e <;> cases e <;> exact ⟨fun m => by simpa [TrKnown] using hk m, by simpa [TrStrict] using hs⟩
  | getAll k n =>
    simp only [TrCtl.step] at e
    rcases hx : s.ns n with _ | x <;> rw [hx] at e <;> cases e <;> exact ⟨fun m => by simpa [TrKnown] using hk m, by simpa [TrStrict] using hs⟩
  | getIds k n =>
    simp only [TrCtl.step] at e
    rcases hx : s.ns n with _ | x <;> rw [hx] at e <;> cases e <;> exact ⟨fun m => by simpa [TrKnown] using hk m, by simpa [TrStrict] using hs⟩
  | deregister n =>
    simp only [TrCtl.step] at e
    rcases hx : s.ns n with _ | x
    · rw [hx] at e; cases e
      refine ⟨fun m => ?_, by simpa [TrStrict] using hs⟩
      rw [TrKnown, hk]
      exact ⟨fun h => h.2, fun h => ⟨fun g => h (g ▸ hx), h⟩⟩
    · rw [hx] at e; cases e
      refine ⟨fun m => ?_, by simpa [TrStrict] using hs⟩
      rw [TrKnown, hk]
      by_cases g : m = n
      · simp [g]
      · simp [g, Ne.symm g]
  | setNsMax k n v =>
    simp only [TrCtl.step] at e
    rcases hx : s.ns n with _ | x
    · rw [hx] at e; cases e; exact ⟨fun m => by simpa [TrKnown] using hk m, by simpa [TrStrict] using hs⟩
    · rw [hx] at e; cases e
      refine ⟨fun m => ?_, by simpa [TrStrict, TrCtl.put] using hs⟩
      have := put_known s n { x with max := updK x.max k v } (by rw [hx]; simp) m
      simpa [TrKnown] using (hk m).trans this.symm

theorem trace_known {max nsMax : RKind → Int} {h : List (TrOp × TrRes)} {s : TrCtl} (t : TrTrace (.start max nsMax) h s) :
    (∀ n, TrKnown h n ↔ s.ns n ≠ none) ∧ TrStrict h = s.strict ∧ ∀ e ∈ h, ∀ k n id o, TrMakes e k n id o → o < s.next := by
  induction t with
  | nil => exact ⟨fun n => by simp [TrKnown, TrCtl.start], rfl, by simp⟩
  | @cons h s s' op r t e ih =>
    obtain ⟨h1, h2⟩ := step_known e ih.1 ih.2.1
    obtain ⟨h3, h4⟩ := step_next e
    refine ⟨h1, h2, fun x hx k n id o hm => ?_⟩
    rcases List.mem_cons.1 hx with rfl | hx
    · have := h4 k n id o hm; omega
    · have := ih.2.2 x hx k n id o hm; omega

end Wdt
