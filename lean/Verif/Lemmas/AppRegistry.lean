import Verif.Model.AppRegistry
/-
Invariants of the objects per application name.
-/
namespace Wdt

/-- Object `id` was made for the `k`-th life of the name `n`. -/
def AppSys.Is (s : AppSys) (id : Nat) (n : Bytes) (k : Nat) : Prop :=
  ∃ o, s.objs[id]? = some o ∧ o.owner = n ∧ o.epoch = k

/-- Object `id` has been initialised. -/
def AppSys.Ready (s : AppSys) (id : Nat) : Prop := ∃ o, s.objs[id]? = some o ∧ o.initDone = true

/-- What is known of the object a thread works with. -/
def AppSys.PcOk (s : AppSys) : AppPc → Prop
  | .initTest n id k | .initName n id k | .initMark n id k | .getTest n id k => s.Is id n k
  | .initRates n id k => s.Is id n k ∧ s.Ready id
  | _ => True

structure AppInv (s : AppSys) : Prop where
  map : ∀ n id, (n, id) ∈ s.map → ∃ o : AppObj, s.objs[id]? = some o ∧ o.alive = true ∧ o.owner = n ∧ o.epoch = s.released n
  live : ∀ (id : Nat) (o : AppObj), s.objs[id]? = some o → o.alive = true → (o.owner, id) ∈ s.map
  dead : ∀ (id : Nat) (o : AppObj), s.objs[id]? = some o → o.alive = false → o.epoch < s.released o.owner
  uniq : ∀ (i j : Nat) (oi oj : AppObj), s.objs[i]? = some oi → s.objs[j]? = some oj → oi.owner = oj.owner → oi.epoch = oj.epoch → i = j
  rets : ∀ r ∈ s.rets, s.Is r.id r.name r.k ∧ s.Ready r.id
  pcs : ∀ t, s.PcOk (s.pc t)

theorem AppInv.init (f : AppOpts) : AppInv { flags := f } where
  map := by simp
  live := by simp
  dead := by simp
  uniq := by simp
  rets := by simp
  pcs := fun _ => trivial

theorem AppSys.Is.mono {s s' : AppSys} {id : Nat} {n : Bytes} {k : Nat} (h : s.Is id n k)
    (hs : ∀ o : AppObj, s.objs[id]? = some o → ∃ o' : AppObj, s'.objs[id]? = some o' ∧ o'.owner = o.owner ∧ o'.epoch = o.epoch) : s'.Is id n k := by
  obtain ⟨o, h1, h2, h3⟩ := h
  obtain ⟨o', q1, q2, q3⟩ := hs o h1
  exact ⟨o', q1, q2.trans h2, q3.trans h3⟩

theorem AppSys.PcOk.mono {s s' : AppSys} {p : AppPc} (h : s.PcOk p)
    (hs : ∀ (id : Nat) (o : AppObj), s.objs[id]? = some o → ∃ o' : AppObj, s'.objs[id]? = some o' ∧ o'.owner = o.owner ∧ o'.epoch = o.epoch ∧
      (o.initDone = true → o'.initDone = true)) : s'.PcOk p := by
  have key : ∀ id n k, s.Is id n k → s'.Is id n k := fun id n k h =>
    h.mono fun o ho => by obtain ⟨o', a, b, c, _⟩ := hs id o ho; exact ⟨o', a, b, c⟩
  unfold AppSys.PcOk at h ⊢
  split at h
  · exact key _ _ _ h
  · exact key _ _ _ h
  · exact key _ _ _ h
  · exact key _ _ _ h
  · obtain ⟨h1, o, h2, h3⟩ := h
    obtain ⟨o', a, _, _, d⟩ := hs _ o h2
    exact ⟨key _ _ _ h1, o', a, d h3⟩
  · trivial

/-- Only a thread moves. -/
theorem AppInv.goto {s : AppSys} (hi : AppInv s) {t : Nat} {p : AppPc} (hp : s.PcOk p) : AppInv (s.goto t p) where
  map := hi.map
  live := hi.live
  dead := hi.dead
  uniq := hi.uniq
  rets := hi.rets
  pcs := by
    intro v
    show AppSys.PcOk s _
    show s.PcOk (if v = t then p else s.pc v)
    split
    · exact hp
    · exact hi.pcs v

/-- One object changes, but neither its name nor its life. -/
theorem AppInv.put {s : AppSys} (hi : AppInv s) {id : Nat} {o o' : AppObj} (ho : s.objs[id]? = some o) (h1 : o'.owner = o.owner)
    (h2 : o'.epoch = o.epoch) (h3 : o'.alive = o.alive) (h4 : o.initDone = true → o'.initDone = true) : AppInv (s.put id o') := by
  have hl : id < s.objs.length := by
    rcases Nat.lt_or_ge id s.objs.length with h | h
    · exact h
    · rw [List.getElem?_eq_none h] at ho; exact absurd ho (by simp)
  have get : ∀ j, (s.put id o').objs[j]? = if j = id then some o' else s.objs[j]? := by
    intro j
    show (s.objs.set id o')[j]? = _
    rw [List.getElem?_set]
    by_cases hj : j = id
    · subst hj; simp [hl]
    · rw [if_neg (fun h => hj h.symm), if_neg hj]
  have fwd : ∀ (j : Nat) (x : AppObj), s.objs[j]? = some x → ∃ x' : AppObj, (s.put id o').objs[j]? = some x' ∧ x'.owner = x.owner ∧ x'.epoch = x.epoch ∧
      x'.alive = x.alive ∧ (x.initDone = true → x'.initDone = true) := by
    intro j x hx
    rw [get]
    by_cases hj : j = id
    · subst hj
      rw [ho] at hx; cases hx
      exact ⟨o', by rw [if_pos rfl], h1, h2, h3, h4⟩
    · exact ⟨x, by rw [if_neg hj]; exact hx, rfl, rfl, rfl, fun h => h⟩
  have bwd : ∀ (j : Nat) (x' : AppObj), (s.put id o').objs[j]? = some x' → ∃ x : AppObj, s.objs[j]? = some x ∧ x'.owner = x.owner ∧ x'.epoch = x.epoch ∧
      x'.alive = x.alive := by
    intro j x' hx
    rw [get] at hx
    by_cases hj : j = id
    · subst hj
      rw [if_pos rfl] at hx; cases hx
      exact ⟨o, ho, h1, h2, h3⟩
    · rw [if_neg hj] at hx; exact ⟨x', hx, rfl, rfl, rfl⟩
  refine ⟨?_, ?_, ?_, ?_, ?_, ?_⟩
  · intro n j hj
    obtain ⟨x, a, b, c, d⟩ := hi.map n j hj
    obtain ⟨x', a', b', c', d', _⟩ := fwd j x a
    exact ⟨x', a', d'.trans b, b'.trans c, c'.trans d⟩
  · intro j x' hx ha
    obtain ⟨x, a, b, c, d⟩ := bwd j x' hx
    rw [b]; exact hi.live j x a (d ▸ ha)
  · intro j x' hx ha
    obtain ⟨x, a, b, c, d⟩ := bwd j x' hx
    rw [b, c]; exact hi.dead j x a (d ▸ ha)
  · intro i j oi oj hoi hoj hw he
    obtain ⟨x, a, b, c, _⟩ := bwd i oi hoi
    obtain ⟨y, a', b', c', _⟩ := bwd j oj hoj
    exact hi.uniq i j x y a a' (by rw [← b, ← b']; exact hw) (by rw [← c, ← c']; exact he)
  · intro r hr
    obtain ⟨a, x, hx, hd⟩ := hi.rets r hr
    refine ⟨a.mono fun o ho => by obtain ⟨x', p, q, r, _⟩ := fwd _ o ho; exact ⟨x', p, q, r⟩, ?_⟩
    obtain ⟨x', p, _, _, _, q⟩ := fwd _ x hx
    exact ⟨x', p, q hd⟩
  · intro t
    exact (hi.pcs t).mono fun j x hx => by obtain ⟨x', p, q, r, _, u⟩ := fwd j x hx; exact ⟨x', p, q, r, u⟩

theorem AppInv.return {s : AppSys} (hi : AppInv s) {r : AppRet} (hr : s.Is r.id r.name r.k ∧ s.Ready r.id) :
    AppInv { s with rets := s.rets ++ [r] } where
  map := hi.map
  live := hi.live
  dead := hi.dead
  uniq := hi.uniq
  rets := by
    intro x hx
    rcases List.mem_append.1 hx with h | h
    · exact hi.rets x h
    · rw [List.mem_singleton] at h; subst h; exact hr
  pcs := hi.pcs

theorem AppSys.obj_some {s : AppSys} {id : Nat} {o : AppObj} (h : s.obj id = some o) : s.objs[id]? = some o ∧ o.alive = true := by
  unfold AppSys.obj at h
  split at h
  · rename_i x hx
    split at h
    · cases h; exact ⟨hx, by assumption⟩
    · exact absurd h (by simp)
  · exact absurd h (by simp)

theorem AppSys.find_some {s : AppSys} {n : Bytes} {id : Nat} (h : s.find n = some id) : (n, id) ∈ s.map := by
  unfold AppSys.find at h
  rw [Option.map_eq_some_iff] at h
  obtain ⟨⟨m, i⟩, h1, h2⟩ := h
  have h3 := List.find?_some h1
  have h4 := List.mem_of_find?_eq_some h1
  simp only [decide_eq_true_eq] at h3
  subst h3 h2
  exact h4

theorem AppSys.find_none {s : AppSys} {n : Bytes} (h : s.find n = none) (id : Nat) : (n, id) ∉ s.map := by
  unfold AppSys.find at h
  rw [Option.map_eq_none_iff, List.find?_eq_none] at h
  intro hm
  exact h _ hm (by simp)

theorem AppInv.findOrMake {s : AppSys} (hi : AppInv s) (n : Bytes) :
    AppInv (s.findOrMake n).2 ∧ (s.findOrMake n).2.Is (s.findOrMake n).1 n (s.released n) := by
  unfold AppSys.findOrMake
  split
  · rename_i id hid
    obtain ⟨o, h1, h2, h3, h4⟩ := hi.map n id (AppSys.find_some hid)
    exact ⟨hi, o, h1, h3, h4⟩
  · rename_i hn
    have fwd : ∀ (j : Nat) (x : AppObj), s.objs[j]? = some x → (s.objs ++ [s.newObj n])[j]? = some x := by
      intro j x hx
      rw [List.getElem?_append_left]
      · exact hx
      · rcases Nat.lt_or_ge j s.objs.length with h | h
        · exact h
        · rw [List.getElem?_eq_none h] at hx; exact absurd hx (by simp)
    have bwd : ∀ (j : Nat) (x : AppObj), (s.objs ++ [s.newObj n])[j]? = some x → s.objs[j]? = some x ∨ j = s.objs.length ∧ x = s.newObj n := by
      intro j x hx
      rw [List.getElem?_append] at hx
      split at hx
      · exact .inl hx
      · rename_i hj
        right
        cases hk : j - s.objs.length with
        | zero =>
          rw [hk] at hx
          simp only [List.getElem?_cons_zero, Option.some.injEq] at hx
          exact ⟨by omega, hx.symm⟩
        | succ k =>
          rw [hk] at hx
          simp at hx
    have notnew : ∀ (j : Nat) (x : AppObj), s.objs[j]? = some x → x.owner = n → x.epoch = s.released n → False := by
      intro j x hx ho he
      cases ha : x.alive with
      | true => exact AppSys.find_none hn j (ho ▸ hi.live j x hx ha)
      | false => have := hi.dead j x hx ha; rw [ho, he] at this; exact Nat.lt_irrefl _ this
    have hlast : (s.objs ++ [s.newObj n])[s.objs.length]? = some (s.newObj n) := by simp
    refine ⟨⟨?_, ?_, ?_, ?_, ?_, ?_⟩, s.newObj n, hlast, rfl, rfl⟩
    · intro m j hj
      rcases List.mem_append.1 hj with hj | hj
      · obtain ⟨o, h1, h2⟩ := hi.map m j hj
        exact ⟨o, fwd j o h1, h2⟩
      · rw [List.mem_singleton, Prod.mk.injEq] at hj
        obtain ⟨rfl, rfl⟩ := hj
        exact ⟨_, hlast, rfl, rfl, rfl⟩
    · intro j x hx ha
      rcases bwd j x hx with hx | ⟨rfl, rfl⟩
      · exact List.mem_append_left _ (hi.live j x hx ha)
      · exact List.mem_append_right _ (by rw [List.mem_singleton]; rfl)
    · intro j x hx ha
      rcases bwd j x hx with hx | ⟨rfl, rfl⟩
      · exact hi.dead j x hx ha
      · exact absurd ha (by unfold AppSys.newObj; simp)
    · intro i j oi oj hoi hoj hw he
      rcases bwd i oi hoi with h1 | ⟨rfl, rfl⟩ <;> rcases bwd j oj hoj with h2 | ⟨rfl, rfl⟩
      · exact hi.uniq i j oi oj h1 h2 hw he
      · exact (notnew i oi h1 hw he).elim
      · exact (notnew j oj h2 hw.symm he.symm).elim
      · rfl
    · intro r hr
      obtain ⟨⟨o, a, b⟩, x, c, d⟩ := hi.rets r hr
      exact ⟨⟨o, fwd _ _ a, b⟩, x, fwd _ _ c, d⟩
    · intro t
      exact (hi.pcs t).mono fun j x hx => ⟨x, fwd j x hx, rfl, rfl, id⟩

theorem AppInv.release {s : AppSys} (hi : AppInv s) {n : Bytes} {id : Nat} {o : AppObj} (hm : (n, id) ∈ s.map)
    (ho : s.objs[id]? = some o) :
    AppInv { s.put id { o with alive := false } with
          map := s.map.filter fun e => decide (e.1 ≠ n)
          released := fun m => if m = n then s.released m + 1 else s.released m } := by
  obtain ⟨o2, a1, a2, a3, a4⟩ := hi.map n id hm
  rw [ho] at a1
  cases a1
  have hl : id < s.objs.length := by
    rcases Nat.lt_or_ge id s.objs.length with h | h
    · exact h
    · rw [List.getElem?_eq_none h] at ho; exact absurd ho (by simp)
  have get : ∀ j, (s.objs.set id { o with alive := false })[j]? = if j = id then some { o with alive := false } else s.objs[j]? := by
    intro j
    rw [List.getElem?_set]
    by_cases hj : j = id
    · subst hj; simp [hl]
    · rw [if_neg (fun h => hj h.symm), if_neg hj]
  have fwd : ∀ (j : Nat) (x : AppObj), s.objs[j]? = some x → ∃ x' : AppObj, (s.objs.set id { o with alive := false })[j]? = some x' ∧ x'.owner = x.owner ∧
      x'.epoch = x.epoch ∧ (x.initDone = true → x'.initDone = true) := by
    intro j x hx
    rw [get]
    by_cases hj : j = id
    · subst hj
      rw [ho] at hx; cases hx
      exact ⟨{ o with alive := false }, by rw [if_pos rfl], rfl, rfl, fun h => h⟩
    · exact ⟨x, by rw [if_neg hj]; exact hx, rfl, rfl, fun h => h⟩
  refine ⟨?_, ?_, ?_, ?_, ?_, ?_⟩
  · intro m j hj
    obtain ⟨hj, hne⟩ := List.mem_filter.1 hj
    have hne : m ≠ n := by simpa using hne
    obtain ⟨x, b1, b2, b3, b4⟩ := hi.map m j hj
    have hji : j ≠ id := by
      rintro rfl
      rw [ho] at b1; cases b1
      exact hne (b3.symm.trans a3)
    refine ⟨x, ?_, b2, b3, ?_⟩
    · show (s.objs.set id _)[j]? = _
      rw [get, if_neg hji]; exact b1
    · show _ = if m = n then _ else _
      rw [if_neg hne]; exact b4
  · intro j x hx ha
    have hx : (s.objs.set id { o with alive := false })[j]? = some x := hx
    rw [get] at hx
    by_cases hj : j = id
    · rw [if_pos hj] at hx; cases hx; exact absurd ha (by simp)
    · rw [if_neg hj] at hx
      refine List.mem_filter.2 ⟨hi.live j x hx ha, ?_⟩
      have : x.owner ≠ n := by
        intro he
        obtain ⟨y, c1, c2, c3, c4⟩ := hi.map _ _ (hi.live j x hx ha)
        rw [hx] at c1; cases c1
        exact hj (hi.uniq j id x o hx ho (he.trans a3.symm) (by rw [c4, a4, he]))
      simpa using this
  · intro j x hx ha
    have hx : (s.objs.set id { o with alive := false })[j]? = some x := hx
    rw [get] at hx
    by_cases hj : j = id
    · rw [if_pos hj] at hx; cases hx
      show o.epoch < if o.owner = n then _ else _
      rw [if_pos a3, a4, a3]; exact Nat.lt_succ_self _
    · rw [if_neg hj] at hx
      have := hi.dead j x hx ha
      show _ < if x.owner = n then _ else _
      split <;> omega
  · intro i j oi oj hoi hoj hw he
    have hoi : (s.objs.set id { o with alive := false })[i]? = some oi := hoi
    have hoj : (s.objs.set id { o with alive := false })[j]? = some oj := hoj
    rw [get] at hoi hoj
    by_cases h1 : i = id <;> by_cases h2 : j = id
    · rw [h1, h2]
    · rw [if_pos h1] at hoi; rw [if_neg h2] at hoj; cases hoi
      rw [h1]; exact hi.uniq id j o oj ho hoj hw he
    · rw [if_neg h1] at hoi; rw [if_pos h2] at hoj; cases hoj
      rw [h2]; exact hi.uniq i id oi o hoi ho hw he
    · rw [if_neg h1] at hoi; rw [if_neg h2] at hoj
      exact hi.uniq i j oi oj hoi hoj hw he
  · intro r hr
    obtain ⟨a, x, hx, hd⟩ := hi.rets r hr
    refine ⟨a.mono fun o ho => by obtain ⟨x', p, q, r, _⟩ := fwd _ o ho; exact ⟨x', p, q, r⟩, ?_⟩
    obtain ⟨x', p, _, _, q⟩ := fwd _ x hx
    exact ⟨x', p, q hd⟩
  · intro t
    exact (hi.pcs t).mono fun j x hx => by obtain ⟨x', p, q, r, u⟩ := fwd j x hx; exact ⟨x', p, q, r, u⟩

theorem AppObj.createSender_same (o : AppObj) (id : Nat) (ns : Bytes) :
    (o.createSender id ns).1.owner = o.owner ∧ (o.createSender id ns).1.epoch = o.epoch ∧
    (o.createSender id ns).1.alive = o.alive ∧ (o.createSender id ns).1.initDone = o.initDone ∧
    (o.createSender id ns).1.opts = o.opts ∧ (o.createSender id ns).1.globalLimit = o.globalLimit := by
  have hw : ∀ x : AppObj, x = o.withSpace ns → x.owner = o.owner ∧ x.epoch = o.epoch ∧ x.alive = o.alive ∧
      x.initDone = o.initDone ∧ x.opts = o.opts ∧ x.globalLimit = o.globalLimit := by
    rintro x rfl
    unfold AppObj.withSpace
    split <;> exact ⟨rfl, rfl, rfl, rfl, rfl, rfl⟩
  have := hw _ rfl
  unfold AppObj.createSender
  dsimp only
  split <;> exact this

theorem AppInv.advance {s s' : AppSys} (hi : AppInv s) {t : Nat} (h : s.advance t = .ok s') : AppInv s' := by
  unfold AppSys.advance at h
  have hp := hi.pcs t
  split at h
  · exact absurd h (by simp)
  · cases h
    refine hi.goto ?_
    split <;> trivial
  · cases h
    refine AppInv.goto (s := { s with global := some s.flags, globalDone := true }) ?_ trivial
    exact ⟨hi.map, hi.live, hi.dead, hi.uniq, hi.rets, hi.pcs⟩
  · rename_i n hn
    cases h
    obtain ⟨h1, h2⟩ := hi.findOrMake n
    exact h1.goto h2
  · rename_i n id k hn
    rw [hn] at hp
    split at h
    · exact absurd h (by simp)
    · rename_i o ho
      obtain ⟨h1, h2⟩ := AppSys.obj_some ho
      split at h
      · rename_i hd
        cases h
        exact (hi.return (r := ⟨true, n, id, k⟩) ⟨hp, o, h1, hd⟩).goto trivial
      · cases h
        exact hi.goto hp
  · rename_i n id k hn
    rw [hn] at hp
    split at h
    · exact absurd h (by simp)
    · rename_i o ho
      obtain ⟨h1, h2⟩ := AppSys.obj_some ho
      cases h
      have hq := hi.put (o' := { o with appName := n }) h1 rfl rfl rfl (fun h => h)
      have := hq.pcs t
      rw [show (s.put id { o with appName := n }).pc = s.pc from rfl, hn] at this
      exact hq.goto this
  · rename_i n id k hn
    rw [hn] at hp
    split at h
    · exact absurd h (by simp)
    · rename_i o ho
      obtain ⟨h1, h2⟩ := AppSys.obj_some ho
      cases h
      have hq := hi.put (o' := { o with initDone := true }) h1 rfl rfl rfl (fun _ => rfl)
      have := hq.pcs t
      rw [show (s.put id { o with initDone := true }).pc = s.pc from rfl, hn] at this
      refine hq.goto ⟨this, { o with initDone := true }, ?_, rfl⟩
      show (s.objs.set id _)[id]? = _
      rw [List.getElem?_set_self]
      rcases Nat.lt_or_ge id s.objs.length with h | h
      · exact h
      · rw [List.getElem?_eq_none h] at h1; exact absurd h1 (by simp)
  · rename_i n id k hn
    rw [hn] at hp
    split at h
    · exact absurd h (by simp)
    · rename_i o ho
      obtain ⟨h1, h2⟩ := AppSys.obj_some ho
      cases h
      have hq := hi.put (o' := { o with rate := o.opts.rate }) h1 rfl rfl rfl (fun h => h)
      have := hq.pcs t
      rw [show (s.put id { o with rate := o.opts.rate }).pc = s.pc from rfl, hn] at this
      exact (hq.return (r := ⟨true, n, id, k⟩) this).goto trivial
  · rename_i n hn
    split at h
    · exact absurd h (by simp)
    · rename_i id hid
      cases h
      obtain ⟨o, h1, h2, h3, h4⟩ := hi.map n id (AppSys.find_some hid)
      exact hi.goto ⟨o, h1, h3, h4⟩
  · rename_i n id k hn
    rw [hn] at hp
    split at h
    · exact absurd h (by simp)
    · rename_i o ho
      obtain ⟨h1, h2⟩ := AppSys.obj_some ho
      split at h
      · rename_i hd
        cases h
        exact (hi.return (r := ⟨false, n, id, k⟩) ⟨hp, o, h1, hd⟩).goto trivial
      · exact absurd h (by simp)
  · rename_i n hn
    split at h
    · cases h; exact hi.goto trivial
    · rename_i id hid
      split at h
      · exact absurd h (by simp)
      · rename_i o ho
        cases h
        exact (hi.release (AppSys.find_some hid) (AppSys.obj_some ho).1).goto trivial

theorem AppInv.event {s s' : AppSys} (hi : AppInv s) {e : AppEvent} (h : s.event e = .ok s') : AppInv s' := by
  cases e with
  | start t c =>
    dsimp only [AppSys.event] at h
    split at h
    · cases h
      refine hi.goto ?_
      cases c <;> trivial
    · exact absurd h (by simp)
  | step t => exact hi.advance h
  | setOpts id v =>
    dsimp only [AppSys.event] at h
    split at h
    · exact absurd h (by simp)
    · rename_i o ho
      cases h
      exact hi.put (AppSys.obj_some ho).1 rfl rfl rfl (fun h => h)
  | create id ns =>
    dsimp only [AppSys.event] at h
    split at h
    · exact absurd h (by simp)
    · rename_i o ho
      cases h
      obtain ⟨h1, h2, h3, h4, _⟩ := o.createSender_same id ns
      have := hi.put (o' := (o.createSender id ns).1) (AppSys.obj_some ho).1 h1 h2 h3 (fun h => by rw [h4]; exact h)
      exact ⟨this.map, this.live, this.dead, this.uniq, this.rets, this.pcs⟩

theorem AppInv.run : ∀ (es : List AppEvent) {s s' : AppSys}, AppInv s → appRun s es = .ok s' → AppInv s'
  | [], _, _, hi, h => by unfold appRun at h; cases h; exact hi
  | e :: es, s, s', hi, h => by
    unfold appRun at h
    split at h
    · rename_i s1 h1
      exact AppInv.run es (hi.event h1) h
    · exact absurd h (by simp)
    · exact absurd h (by simp)

end Wdt
