import Verif.Lemmas.AppRegistry
/-
The options and limits of the objects per application name along a history.
-/
namespace Wdt

/-- The options last set for object `id` in a history; before that, those of the command line. -/
def lastOptions (flags : AppOpts) (id : Nat) (es : List AppEvent) : AppOpts :=
  es.foldl (fun a e => match e with
    | .setOpts i v => if i = id then v else a
    | _ => a) flags

/-- The limit per namespace that the options said when the namespace `ns` of object `id` was used for the first time. -/
def FirstUse (flags : AppOpts) (es : List AppEvent) (id : Nat) (ns : Bytes) (l : Int) : Prop :=
  ∃ pre post, es = pre ++ .create id ns :: post ∧ .create id ns ∉ pre ∧ l = (lastOptions flags id pre).nsLimit

theorem lastOptions_snoc (flags : AppOpts) (id : Nat) (es : List AppEvent) (e : AppEvent) :
    lastOptions flags id (es ++ [e]) = (match e with
      | .setOpts i v => if i = id then v else lastOptions flags id es
      | _ => lastOptions flags id es) := by
  unfold lastOptions
  rw [List.foldl_append]
  cases e <;> rfl

theorem FirstUse.snoc {flags : AppOpts} {es : List AppEvent} {id : Nat} {ns : Bytes} {l : Int} (h : FirstUse flags es id ns l)
    (e : AppEvent) : FirstUse flags (es ++ [e]) id ns l := by
  obtain ⟨pre, post, h1, h2, h3⟩ := h
  exact ⟨pre, post ++ [e], by rw [h1]; simp, h2, h3⟩

theorem first_split {α : Type} (x : α) : ∀ (p q p' q' : List α), p ++ x :: q = p' ++ x :: q' → x ∉ p → x ∉ p' → p = p'
  | [], _, [], _, _, _, _ => rfl
  | [], _, b :: p', _, h, _, h2 => by
    rw [List.nil_append, List.cons_append, List.cons.injEq] at h
    exact absurd (by rw [← h.1]; exact List.mem_cons_self) h2
  | a :: p, _, [], _, h, h1, _ => by
    rw [List.nil_append, List.cons_append, List.cons.injEq] at h
    exact absurd (by rw [h.1]; exact List.mem_cons_self) h1
  | a :: p, q, b :: p', q', h, h1, h2 => by
    rw [List.cons_append, List.cons_append, List.cons.injEq] at h
    rw [h.1, first_split x p q p' q' h.2 (fun hm => h1 (List.mem_cons_of_mem _ hm)) (fun hm => h2 (List.mem_cons_of_mem _ hm))]

theorem FirstUse.unique {flags : AppOpts} {es : List AppEvent} {id : Nat} {ns : Bytes} {l l' : Int} (h : FirstUse flags es id ns l)
    (h' : FirstUse flags es id ns l') : l = l' := by
  obtain ⟨p, q, a, b, c⟩ := h
  obtain ⟨p', q', a', b', c'⟩ := h'
  have := first_split _ p q p' q' (a.symm.trans a') b b'
  rw [c, c', this]

/-- How many senders were made for object `id`. -/
def madeFor (xs : List AppXfer) (id : Nat) : Nat := xs.countP fun x => decide (x.obj = id)

/-- How many of them in the namespace `ns`. -/
def madeIn (xs : List AppXfer) (id : Nat) (ns : Bytes) : Nat := xs.countP fun x => decide (x.obj = id ∧ x.ns = ns)

structure ObjOk (flags : AppOpts) (es : List AppEvent) (xs : List AppXfer) (id : Nat) (o : AppObj) : Prop where
  opts : o.opts = lastOptions flags id es
  glim : o.globalLimit = flags.globalLimit
  count : o.senders = (madeFor xs id : Int)
  spaces : ∀ x ∈ o.spaces, x.senders = (madeIn xs id x.name : Int) ∧ FirstUse flags es id x.name x.limit
  seen : ∀ ns, .create id ns ∈ es → ∃ x ∈ o.spaces, x.name = ns
  used : ∀ x ∈ xs, x.obj = id → ∃ y ∈ o.spaces, y.name = x.ns

structure AppOInv (flags : AppOpts) (es : List AppEvent) (s : AppSys) : Prop where
  same : s.flags = flags
  objs : ∀ (id : Nat) (o : AppObj), s.objs[id]? = some o → ObjOk flags es s.xfers id o
  setBound : ∀ id v, .setOpts id v ∈ es → id < s.objs.length
  createBound : ∀ id ns, .create id ns ∈ es → id < s.objs.length
  xBound : ∀ x ∈ s.xfers, x.obj < s.objs.length

theorem lastOptions_none (flags : AppOpts) (id : Nat) : ∀ (es : List AppEvent), (∀ v, .setOpts id v ∉ es) → lastOptions flags id es = flags := by
  intro es
  induction es with
  | nil => intro _; rfl
  | cons e es ih =>
    intro h
    have hr := ih fun v hv => h v (List.mem_cons_of_mem _ hv)
    cases e with
    | setOpts i v =>
      have hne : i ≠ id := by rintro rfl; exact h v List.mem_cons_self
      unfold lastOptions at hr ⊢
      rw [List.foldl_cons]
      simp only [hne, if_false]
      exact hr
    | _ => exact hr

/-- Nothing of an object that matters here changes when a call makes a step. -/
theorem ObjOk.quiet {flags : AppOpts} {es : List AppEvent} {xs : List AppXfer} {id : Nat} {o o' : AppObj} (h : ObjOk flags es xs id o)
    {e : AppEvent} (he : (∃ t c, e = .start t c) ∨ ∃ t, e = .step t) (h1 : o'.opts = o.opts) (h2 : o'.globalLimit = o.globalLimit)
    (h3 : o'.senders = o.senders) (h4 : o'.spaces = o.spaces) : ObjOk flags (es ++ [e]) xs id o' where
  opts := by
    rw [h1, h.opts, lastOptions_snoc]
    rcases he with ⟨t, c, rfl⟩ | ⟨t, rfl⟩ <;> rfl
  glim := h2.trans h.glim
  count := h3.trans h.count
  spaces := by
    rw [h4]; intro x hx
    exact ⟨(h.spaces x hx).1, (h.spaces x hx).2.snoc e⟩
  seen := by
    intro ns hm
    rw [h4]
    rcases List.mem_append.1 hm with hm | hm
    · exact h.seen ns hm
    · rw [List.mem_singleton] at hm
      rcases he with ⟨t, c, rfl⟩ | ⟨t, rfl⟩ <;> cases hm
  used := by rw [h4]; exact h.used

/-- How a step of a call changes the objects: one of them in what does not matter here, or a new one appears. -/
theorem advance_objs {s s' : AppSys} {t : Nat} (h : s.advance t = .ok s') : s'.flags = s.flags ∧ s'.xfers = s.xfers ∧
    (s'.objs = s.objs ∨ (∃ (id : Nat) (o o' : AppObj), s.objs[id]? = some o ∧ s'.objs = s.objs.set id o' ∧ o'.opts = o.opts ∧
        o'.globalLimit = o.globalLimit ∧ o'.senders = o.senders ∧ o'.spaces = o.spaces) ∨
      ∃ n, s'.objs = s.objs ++ [s.newObj n]) := by
  unfold AppSys.advance at h
  split at h
  · exact absurd h (by simp)
  · cases h; exact ⟨rfl, rfl, .inl rfl⟩
  · cases h; exact ⟨rfl, rfl, .inl rfl⟩
  · rename_i n hn
    have h' : s' = (s.findOrMake n).2.goto t (.initTest n (s.findOrMake n).1 (s.released n)) := by
      injection h with h; exact h.symm
    subst h'
    unfold AppSys.findOrMake
    split
    · exact ⟨rfl, rfl, .inl rfl⟩
    · exact ⟨rfl, rfl, .inr (.inr ⟨n, rfl⟩)⟩
  · split at h
    · exact absurd h (by simp)
    · split at h
      · cases h; exact ⟨rfl, rfl, .inl rfl⟩
      · cases h; exact ⟨rfl, rfl, .inl rfl⟩
  · split at h
    · exact absurd h (by simp)
    · rename_i id _ _ _ o ho
      cases h
      exact ⟨rfl, rfl, .inr (.inl ⟨id, o, _, (AppSys.obj_some ho).1, rfl, rfl, rfl, rfl, rfl⟩)⟩
  · split at h
    · exact absurd h (by simp)
    · rename_i id _ _ _ o ho
      cases h
      exact ⟨rfl, rfl, .inr (.inl ⟨id, o, _, (AppSys.obj_some ho).1, rfl, rfl, rfl, rfl, rfl⟩)⟩
  · split at h
    · exact absurd h (by simp)
    · rename_i id _ _ _ o ho
      cases h
      exact ⟨rfl, rfl, .inr (.inl ⟨id, o, _, (AppSys.obj_some ho).1, rfl, rfl, rfl, rfl, rfl⟩)⟩
  · split at h
    · exact absurd h (by simp)
    · cases h; exact ⟨rfl, rfl, .inl rfl⟩
  · split at h
    · exact absurd h (by simp)
    · split at h
      · cases h; exact ⟨rfl, rfl, .inl rfl⟩
      · exact absurd h (by simp)
  · split at h
    · cases h; exact ⟨rfl, rfl, .inl rfl⟩
    · split at h
      · exact absurd h (by simp)
      · rename_i id _ _ o ho
        cases h
        exact ⟨rfl, rfl, .inr (.inl ⟨id, o, _, (AppSys.obj_some ho).1, rfl, rfl, rfl, rfl, rfl⟩)⟩

theorem get_set_objs {l : List AppObj} {id : Nat} {o : AppObj} (ho : l[id]? = some o) (o' : AppObj) (j : Nat) :
    (l.set id o')[j]? = if j = id then some o' else l[j]? := by
  have hl : id < l.length := by
    rcases Nat.lt_or_ge id l.length with h | h
    · exact h
    · rw [List.getElem?_eq_none h] at ho; exact absurd ho (by simp)
  rw [List.getElem?_set]
  by_cases hj : j = id
  · subst hj; simp [hl]
  · rw [if_neg (fun h => hj h.symm), if_neg hj]

theorem lt_of_getElem? {α : Type} {l : List α} {i : Nat} {x : α} (h : l[i]? = some x) : i < l.length := by
  rcases Nat.lt_or_ge i l.length with h' | h'
  · exact h'
  · rw [List.getElem?_eq_none h'] at h; exact absurd h (by simp)

theorem AppOInv.quiet {flags : AppOpts} {es : List AppEvent} {s s' : AppSys} (hi : AppOInv flags es s) {e : AppEvent}
    (he : (∃ t c, e = .start t c) ∨ ∃ t, e = .step t) (hf : s'.flags = s.flags) (hx : s'.xfers = s.xfers)
    (ho : s'.objs = s.objs ∨ (∃ (id : Nat) (o o' : AppObj), s.objs[id]? = some o ∧ s'.objs = s.objs.set id o' ∧ o'.opts = o.opts ∧
        o'.globalLimit = o.globalLimit ∧ o'.senders = o.senders ∧ o'.spaces = o.spaces) ∨
      ∃ n, s'.objs = s.objs ++ [s.newObj n]) : AppOInv flags (es ++ [e]) s' := by
  have hlen : s.objs.length ≤ s'.objs.length := by
    rcases ho with h | ⟨_, _, _, _, h, _⟩ | ⟨n, h⟩ <;> rw [h] <;> simp
  have hset : ∀ id v, AppEvent.setOpts id v ∈ es ++ [e] → AppEvent.setOpts id v ∈ es := by
    intro id v hm
    rcases List.mem_append.1 hm with h | h
    · exact h
    · rw [List.mem_singleton] at h
      rcases he with ⟨t, c, rfl⟩ | ⟨t, rfl⟩ <;> cases h
  have hcre : ∀ id v, AppEvent.create id v ∈ es ++ [e] → AppEvent.create id v ∈ es := by
    intro id v hm
    rcases List.mem_append.1 hm with h | h
    · exact h
    · rw [List.mem_singleton] at h
      rcases he with ⟨t, c, rfl⟩ | ⟨t, rfl⟩ <;> cases h
  refine ⟨hf.trans hi.same, ?_, ?_, ?_, ?_⟩
  · intro id o hio
    rw [hx]
    rcases ho with h | ⟨j, x, x', h1, h2, h3, h4, h5, h6⟩ | ⟨n, h⟩
    · rw [h] at hio
      exact (hi.objs id o hio).quiet he rfl rfl rfl rfl
    · rw [h2, get_set_objs h1] at hio
      split at hio
      · rename_i hj
        cases hio; subst hj
        exact (hi.objs id x h1).quiet he h3 h4 h5 h6
      · exact (hi.objs id o hio).quiet he rfl rfl rfl rfl
    · rw [h, List.getElem?_append] at hio
      split at hio
      · exact (hi.objs id o hio).quiet he rfl rfl rfl rfl
      · rename_i hj
        have hid : id = s.objs.length ∧ o = s.newObj n := by
          cases hk : id - s.objs.length with
          | zero => rw [hk] at hio; simp only [List.getElem?_cons_zero, Option.some.injEq] at hio; exact ⟨by omega, hio.symm⟩
          | succ k => rw [hk] at hio; simp at hio
        obtain ⟨rfl, rfl⟩ := hid
        refine ⟨?_, ?_, ?_, ?_, ?_, ?_⟩
        · show s.flags = _
          rw [lastOptions_none _ _ _ (fun v hv => ?_), hi.same]
          exact Nat.lt_irrefl _ (hi.setBound _ v (hset _ v hv))
        · show s.flags.globalLimit = _
          rw [hi.same]
        · show (0 : Int) = _
          have : madeFor s.xfers s.objs.length = 0 := by
            unfold madeFor
            rw [List.countP_eq_zero]
            intro x hx
            have := hi.xBound x hx
            simp only [decide_eq_true_eq]
            omega
          rw [this]; rfl
        · intro x hx; exact absurd hx (by simp [AppSys.newObj])
        · intro ns hm
          exact absurd (hi.createBound _ ns (hcre _ ns hm)) (Nat.lt_irrefl _)
        · intro x hx he
          have := hi.xBound x hx
          omega
  · intro id v hm
    exact Nat.lt_of_lt_of_le (hi.setBound id v (hset id v hm)) hlen
  · intro id v hm
    exact Nat.lt_of_lt_of_le (hi.createBound id v (hcre id v hm)) hlen
  · rw [hx]; intro x hm
    exact Nat.lt_of_lt_of_le (hi.xBound x hm) hlen

theorem AppOInv.setOpts {flags : AppOpts} {es : List AppEvent} {s : AppSys} (hi : AppOInv flags es s) {id : Nat} {o : AppObj}
    (ho : s.objs[id]? = some o) (v : AppOpts) : AppOInv flags (es ++ [.setOpts id v]) (s.put id { o with opts := v }) := by
  have hl := lt_of_getElem? ho
  have hcre : ∀ i ns, AppEvent.create i ns ∈ es ++ [.setOpts id v] → AppEvent.create i ns ∈ es := by
    intro i ns hm
    rcases List.mem_append.1 hm with h | h
    · exact h
    · rw [List.mem_singleton] at h; cases h
  refine ⟨hi.same, ?_, ?_, ?_, ?_⟩
  · intro j x hj
    have hj : (s.objs.set id { o with opts := v })[j]? = some x := hj
    rw [get_set_objs ho] at hj
    split at hj
    · rename_i hjj
      cases hj; subst hjj
      have h := hi.objs j o ho
      exact ⟨by rw [lastOptions_snoc]; simp, h.glim, h.count, fun x hx => ⟨(h.spaces x hx).1, (h.spaces x hx).2.snoc _⟩,
        fun ns hm => h.seen ns (hcre _ ns hm), h.used⟩
    · rename_i hjj
      have h := hi.objs j x hj
      exact ⟨by rw [lastOptions_snoc]; simp only; rw [if_neg (fun h => hjj h.symm)]; exact h.opts, h.glim, h.count,
        fun x hx => ⟨(h.spaces x hx).1, (h.spaces x hx).2.snoc _⟩, fun ns hm => h.seen ns (hcre _ ns hm), h.used⟩
  · intro j w hm
    show j < (s.objs.set id _).length
    rw [List.length_set]
    rcases List.mem_append.1 hm with h | h
    · exact hi.setBound j w h
    · rw [List.mem_singleton] at h; cases h; exact hl
  · intro j ns hm
    show j < (s.objs.set id _).length
    rw [List.length_set]
    exact hi.createBound j ns (hcre j ns hm)
  · intro x hx
    show x.obj < (s.objs.set id _).length
    rw [List.length_set]
    exact hi.xBound x hx

/-- The namespace is looked up or made. -/
theorem ObjOk.withSpace {flags : AppOpts} {es : List AppEvent} {xs : List AppXfer} {id : Nat} {o : AppObj} (h : ObjOk flags es xs id o)
    (ns : Bytes) : ObjOk flags (es ++ [.create id ns]) xs id (o.withSpace ns) := by
  have hop : lastOptions flags id (es ++ [.create id ns]) = lastOptions flags id es := lastOptions_snoc ..
  unfold AppObj.withSpace
  by_cases ha : (o.spaces.any fun x => decide (x.name = ns)) = true
  · rw [if_pos ha]
    refine ⟨by rw [hop]; exact h.opts, h.glim, h.count, fun x hx => ⟨(h.spaces x hx).1, (h.spaces x hx).2.snoc _⟩, ?_, h.used⟩
    intro m hm
    rcases List.mem_append.1 hm with hm | hm
    · exact h.seen m hm
    · rw [List.mem_singleton] at hm
      cases hm
      rw [List.any_eq_true] at ha
      obtain ⟨x, hx, he⟩ := ha
      exact ⟨x, hx, by simpa using he⟩
  · rw [if_neg ha]
    have hno : ∀ x ∈ o.spaces, x.name ≠ ns := by
      intro x hx he
      exact ha (List.any_eq_true.2 ⟨x, hx, by simpa using he⟩)
    refine ⟨by rw [hop]; exact h.opts, h.glim, h.count, ?_, ?_, ?_⟩
    · intro x hx
      rcases List.mem_append.1 hx with hx | hx
      · exact ⟨(h.spaces x hx).1, (h.spaces x hx).2.snoc _⟩
      · rw [List.mem_singleton] at hx
        subst hx
        refine ⟨?_, es, [], rfl, ?_, by rw [h.opts]⟩
        · have : madeIn xs id ns = 0 := by
            unfold madeIn
            rw [List.countP_eq_zero]
            intro x hx hc
            simp only [decide_eq_true_eq] at hc
            obtain ⟨y, hy, hn⟩ := h.used x hx hc.1
            exact hno y hy (hn.trans hc.2)
          show (0 : Int) = (madeIn xs id ns : Int)
          rw [this]; rfl
        · intro hm
          obtain ⟨x, hx, hn⟩ := h.seen ns hm
          exact hno x hx hn
    · intro m hm
      rcases List.mem_append.1 hm with hm | hm
      · obtain ⟨x, hx, hn⟩ := h.seen m hm
        exact ⟨x, List.mem_append_left _ hx, hn⟩
      · rw [List.mem_singleton] at hm
        cases hm
        exact ⟨_, List.mem_append_right _ List.mem_cons_self, rfl⟩
    · intro x hx he
      obtain ⟨y, hy, hn⟩ := h.used x hx he
      exact ⟨y, List.mem_append_left _ hy, hn⟩

theorem withSpace_has (o : AppObj) (ns : Bytes) : ∃ x ∈ (o.withSpace ns).spaces, x.name = ns := by
  unfold AppObj.withSpace
  by_cases ha : (o.spaces.any fun x => decide (x.name = ns)) = true
  · rw [if_pos ha]
    rw [List.any_eq_true] at ha
    obtain ⟨x, hx, he⟩ := ha
    exact ⟨x, hx, by simpa using he⟩
  · rw [if_neg ha]
    exact ⟨_, List.mem_append_right _ List.mem_cons_self, rfl⟩

/-- When a sender is made, and which. -/
theorem createSender_result {flags : AppOpts} {es : List AppEvent} {xs : List AppXfer} {id : Nat} {o : AppObj}
    (h : ObjOk flags es xs id o) (ns : Bytes) {l : Int} (hl : FirstUse flags (es ++ [.create id ns]) id ns l) :
    (o.createSender id ns).2 =
      if (flags.globalLimit ≤ 0 ∨ (madeFor xs id : Int) < flags.globalLimit) ∧ (l ≤ 0 ∨ (madeIn xs id ns : Int) < l) then
        some ⟨id, ns, lastOptions flags id es, (lastOptions flags id es).rate⟩
      else none := by
  have h1 := h.withSpace ns
  obtain ⟨x, hx, hn⟩ := withSpace_has o ns
  have hop : lastOptions flags id (es ++ [.create id ns]) = lastOptions flags id es := lastOptions_snoc ..
  have hsp : ∀ y ∈ (o.withSpace ns).spaces, y.name = ns → y.limit = l ∧ y.senders = (madeIn xs id ns : Int) := by
    intro y hy he
    obtain ⟨a, b⟩ := h1.spaces y hy
    rw [he] at a b
    exact ⟨b.unique hl, a⟩
  unfold AppObj.createSender
  dsimp only
  have hc : (decide ((o.withSpace ns).senders ≥ (o.withSpace ns).globalLimit ∧ (o.withSpace ns).globalLimit > 0) ||
      (o.withSpace ns).spaces.any (fun x => decide (x.name = ns ∧ x.senders ≥ x.limit ∧ x.limit > 0))) = true ↔
      ¬ ((flags.globalLimit ≤ 0 ∨ (madeFor xs id : Int) < flags.globalLimit) ∧ (l ≤ 0 ∨ (madeIn xs id ns : Int) < l)) := by
    rw [Bool.or_eq_true, decide_eq_true_eq, List.any_eq_true, h1.count, h1.glim]
    constructor
    · rintro (⟨a, b⟩ | ⟨y, hy, hb⟩)
      · omega
      · simp only [decide_eq_true_eq] at hb
        obtain ⟨e1, e2⟩ := hsp y hy hb.1
        omega
    · intro hh
      by_cases hg : (madeFor xs id : Int) ≥ flags.globalLimit ∧ flags.globalLimit > 0
      · exact .inl hg
      · right
        obtain ⟨e1, e2⟩ := hsp x hx hn
        refine ⟨x, hx, ?_⟩
        simp only [decide_eq_true_eq]
        refine ⟨hn, ?_⟩
        omega
  by_cases hq : ((flags.globalLimit ≤ 0 ∨ (madeFor xs id : Int) < flags.globalLimit) ∧ (l ≤ 0 ∨ (madeIn xs id ns : Int) < l))
  · rw [if_pos hq, if_neg (fun h => hc.1 h hq)]
    rw [h1.opts, hop]
  · rw [if_neg hq, if_pos (hc.2 hq)]

theorem madeFor_snoc (xs : List AppXfer) (x : AppXfer) (id : Nat) :
    madeFor (xs ++ [x]) id = madeFor xs id + if x.obj = id then 1 else 0 := by
  unfold madeFor
  rw [List.countP_append, List.countP_singleton]
  by_cases h : x.obj = id <;> simp [h]

theorem madeIn_snoc (xs : List AppXfer) (x : AppXfer) (id : Nat) (ns : Bytes) :
    madeIn (xs ++ [x]) id ns = madeIn xs id ns + if x.obj = id ∧ x.ns = ns then 1 else 0 := by
  unfold madeIn
  rw [List.countP_append, List.countP_singleton]
  by_cases h : x.obj = id ∧ x.ns = ns <;> simp [h]

theorem ObjOk.create {flags : AppOpts} {es : List AppEvent} {xs : List AppXfer} {id : Nat} {o : AppObj} (h : ObjOk flags es xs id o)
    (ns : Bytes) : ObjOk flags (es ++ [.create id ns]) (xs ++ (o.createSender id ns).2.toList) id (o.createSender id ns).1 := by
  have h1 := h.withSpace ns
  obtain ⟨x0, hx0, hn0⟩ := withSpace_has o ns
  unfold AppObj.createSender
  dsimp only
  split
  · dsimp only [Option.toList]
    rw [List.append_nil]
    exact h1
  · dsimp only [Option.toList]
    have hmem : ∀ y ∈ (o.withSpace ns).spaces.map (fun x => if x.name = ns then { x with senders := x.senders + 1 } else x),
        ∃ x ∈ (o.withSpace ns).spaces, y.name = x.name ∧ y.limit = x.limit ∧ y.senders = x.senders + if x.name = ns then 1 else 0 := by
      intro y hy
      rw [List.mem_map] at hy
      obtain ⟨x, hx, rfl⟩ := hy
      refine ⟨x, hx, ?_⟩
      by_cases he : x.name = ns
      · rw [if_pos he, if_pos he]; exact ⟨rfl, rfl, rfl⟩
      · rw [if_neg he, if_neg he]; exact ⟨rfl, rfl, (Int.add_zero _).symm⟩
    have hfwd : ∀ x ∈ (o.withSpace ns).spaces, ∃ y ∈ (o.withSpace ns).spaces.map
        (fun x => if x.name = ns then { x with senders := x.senders + 1 } else x), y.name = x.name := by
      intro x hx
      refine ⟨_, List.mem_map.2 ⟨x, hx, rfl⟩, ?_⟩
      by_cases he : x.name = ns
      · rw [if_pos he]
      · rw [if_neg he]
    refine ⟨h1.opts, h1.glim, ?_, ?_, ?_, ?_⟩
    · dsimp only
      rw [madeFor_snoc, h1.count]
      simp
    · intro y hy
      obtain ⟨x, hx, e1, e2, e3⟩ := hmem y hy
      obtain ⟨a, b⟩ := h1.spaces x hx
      rw [e1, e2, e3, a]
      refine ⟨?_, b⟩
      rw [madeIn_snoc]
      by_cases he : x.name = ns
      · simp [he]
      · rw [if_neg he, if_neg (fun h => he h.2.symm)]; simp
    · intro m hm
      obtain ⟨x, hx, he⟩ := h1.seen m hm
      obtain ⟨y, hy, hf⟩ := hfwd x hx
      exact ⟨y, hy, hf.trans he⟩
    · intro x hx he
      rcases List.mem_append.1 hx with hx | hx
      · obtain ⟨z, hz, hf⟩ := h1.used x hx he
        obtain ⟨y, hy, hg⟩ := hfwd z hz
        exact ⟨y, hy, hg.trans hf⟩
      · rw [List.mem_singleton] at hx
        subst hx
        obtain ⟨y, hy, hg⟩ := hfwd x0 hx0
        exact ⟨y, hy, hg.trans hn0⟩

/-- The other objects are not affected. -/
theorem ObjOk.other {flags : AppOpts} {es : List AppEvent} {xs : List AppXfer} {id j : Nat} {o : AppObj} (h : ObjOk flags es xs j o)
    (hj : j ≠ id) (ns : Bytes) (r : Option AppXfer) (hr : ∀ x ∈ r.toList, x.obj = id) :
    ObjOk flags (es ++ [.create id ns]) (xs ++ r.toList) j o := by
  have hm1 : madeFor (xs ++ r.toList) j = madeFor xs j := by
    cases r with
    | none => simp
    | some x =>
      have := hr x (by simp)
      show madeFor (xs ++ [x]) j = _
      rw [madeFor_snoc, if_neg (by omega)]; rfl
  have hm2 : ∀ n, madeIn (xs ++ r.toList) j n = madeIn xs j n := by
    intro n
    cases r with
    | none => simp
    | some x =>
      have := hr x (by simp)
      show madeIn (xs ++ [x]) j n = _
      rw [madeIn_snoc, if_neg (by rintro ⟨h, _⟩; omega)]; rfl
  refine ⟨by rw [lastOptions_snoc]; exact h.opts, h.glim, by rw [hm1]; exact h.count, ?_, ?_, ?_⟩
  · intro x hx
    rw [hm2]
    exact ⟨(h.spaces x hx).1, (h.spaces x hx).2.snoc _⟩
  · intro m hm
    rcases List.mem_append.1 hm with hm | hm
    · exact h.seen m hm
    · rw [List.mem_singleton] at hm
      cases hm; exact absurd rfl hj
  · intro x hx he
    rcases List.mem_append.1 hx with hx | hx
    · exact h.used x hx he
    · exact absurd (he.symm.trans (hr x hx)) hj

theorem createSender_obj (o : AppObj) (id : Nat) (ns : Bytes) : ∀ x ∈ (o.createSender id ns).2.toList, x.obj = id := by
  unfold AppObj.createSender
  dsimp only
  split
  · simp
  · simp

theorem AppOInv.create {flags : AppOpts} {es : List AppEvent} {s : AppSys} (hi : AppOInv flags es s) {id : Nat} {o : AppObj}
    (ho : s.objs[id]? = some o) (ns : Bytes) : AppOInv flags (es ++ [.create id ns])
      { s.put id (o.createSender id ns).1 with xfers := s.xfers ++ (o.createSender id ns).2.toList } := by
  have hl := lt_of_getElem? ho
  refine ⟨hi.same, ?_, ?_, ?_, ?_⟩
  · intro j x hj
    have hj : (s.objs.set id (o.createSender id ns).1)[j]? = some x := hj
    rw [get_set_objs ho] at hj
    split at hj
    · rename_i hjj
      cases hj; subst hjj
      exact (hi.objs j o ho).create ns
    · rename_i hjj
      exact (hi.objs j x hj).other hjj ns _ (createSender_obj o id ns)
  · intro j w hm
    show j < (s.objs.set id _).length
    rw [List.length_set]
    rcases List.mem_append.1 hm with h | h
    · exact hi.setBound j w h
    · rw [List.mem_singleton] at h; cases h
  · intro j m hm
    show j < (s.objs.set id _).length
    rw [List.length_set]
    rcases List.mem_append.1 hm with h | h
    · exact hi.createBound j m h
    · rw [List.mem_singleton] at h; cases h; exact hl
  · intro x hx
    show x.obj < (s.objs.set id _).length
    rw [List.length_set]
    rcases List.mem_append.1 hx with h | h
    · exact hi.xBound x h
    · rw [createSender_obj o id ns x h]; exact hl

theorem AppOInv.event {flags : AppOpts} {es : List AppEvent} {s s' : AppSys} (hi : AppOInv flags es s) {e : AppEvent}
    (h : s.event e = .ok s') : AppOInv flags (es ++ [e]) s' := by
  cases e with
  | start t c =>
    dsimp only [AppSys.event] at h
    split at h
    · cases h
      exact hi.quiet (.inl ⟨t, c, rfl⟩) rfl rfl (.inl rfl)
    · exact absurd h (by simp)
  | step t =>
    obtain ⟨h1, h2, h3⟩ := advance_objs h
    exact hi.quiet (.inr ⟨t, rfl⟩) h1 h2 h3
  | setOpts id v =>
    dsimp only [AppSys.event] at h
    split at h
    · exact absurd h (by simp)
    · rename_i o ho
      cases h
      exact hi.setOpts (AppSys.obj_some ho).1 v
  | create id ns =>
    dsimp only [AppSys.event] at h
    split at h
    · exact absurd h (by simp)
    · rename_i o ho
      cases h
      exact hi.create (AppSys.obj_some ho).1 ns

theorem AppOInv.run (flags : AppOpts) : ∀ (es pre : List AppEvent) {s s' : AppSys}, AppOInv flags pre s → appRun s es = .ok s' →
    AppOInv flags (pre ++ es) s'
  | [], pre, _, _, hi, h => by unfold appRun at h; cases h; rw [List.append_nil]; exact hi
  | e :: es, pre, s, s', hi, h => by
    unfold appRun at h
    split at h
    · rename_i s1 h1
      have := AppOInv.run flags es (pre ++ [e]) (hi.event h1) h
      rw [List.append_assoc] at this
      exact this
    · exact absurd h (by simp)
    · exact absurd h (by simp)

theorem AppOInv.init (f : AppOpts) : AppOInv f [] { flags := f } where
  same := rfl
  objs := by simp
  setBound := by simp
  createBound := by simp
  xBound := by simp

end Wdt
