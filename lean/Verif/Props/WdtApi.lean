import Verif.Model.WdtApi
import Mathlib.Data.List.Perm.Subperm
import Mathlib.Data.List.Nodup
/-
Property C89: one transfer at a time to a destination.

An application calls `wdtSend` from several threads.  A second call for a destination to
which a transfer runs is refused, or, if it asks for that, replaces the first.
-/
namespace Wdt

/-- The sender that a call has. -/
def SPc.sender : SPc → Option Nat
  | .created s => some s
  | .running s => some s
  | .ended s _ => some s
  | _ => none

/-- The call has a sender that has yet to run or runs. -/
def SPc.live : SPc → Bool
  | .created _ => true
  | .running _ => true
  | _ => false

theorem regAt_drop_same (reg : List (Nat × Nat)) (k : Nat) : regAt (regDrop reg k) k = none := by
  unfold regAt regDrop
  have : (reg.filter fun x => decide (x.1 ≠ k)).find? (fun x => decide (x.1 = k)) = none := by
    rw [List.find?_eq_none]; intro x hx; simp at hx; simp [hx.2]
  rw [this]; rfl

theorem regAt_drop_other (reg : List (Nat × Nat)) {k k' : Nat} (h : k' ≠ k) : regAt (regDrop reg k) k' = regAt reg k' := by
  unfold regAt regDrop
  congr 1
  rw [List.find?_filter]
  congr 1
  funext x
  by_cases hx : x.1 = k'
  · simp [hx, h]
  · simp [hx]

theorem regAt_keep {reg : List (Nat × Nat)} {k s : Nat} {p : Nat × Nat → Bool} (h : regAt reg k = some s) (hp : p (k, s) = true) :
    regAt (reg.filter p) k = some s := by
  unfold regAt at h ⊢
  rw [List.find?_filter]
  induction reg with
  | nil => simp at h
  | cons x reg ih =>
    by_cases hx : x.1 = k
    · rw [List.find?_cons_of_pos (by simpa using hx)] at h
      have hs : x.2 = s := by simpa using h
      have hxe : x = (k, s) := Prod.ext hx hs
      rw [List.find?_cons_of_pos (by rw [hxe]; simp [hp])]
      exact h
    · rw [List.find?_cons_of_neg (by simpa using hx)] at h
      rw [List.find?_cons_of_neg (by simp [hx])]
      exact ih h

theorem regAt_mem {reg : List (Nat × Nat)} {k s : Nat} (h : regAt reg k = some s) : (k, s) ∈ reg := by
  unfold regAt at h
  obtain ⟨x, hx, rfl⟩ := Option.map_eq_some_iff.1 h
  have h1 := List.find?_some hx
  have h2 := List.mem_of_find?_eq_some hx
  have : x.1 = k := by simpa using h1
  rw [← this]; exact h2

/-- What is kept by every event. -/
structure SInv (S : SendSys) : Prop where
  lt : ∀ (i : Nat) (c : SendCall) (s : Nat), S.calls[i]? = some c → c.pc.sender = some s → s < S.tids.length
  uniq : ∀ (i j : Nat) (c d : SendCall) (s : Nat), S.calls[i]? = some c → S.calls[j]? = some d → c.pc.sender = some s → d.pc.sender = some s → i = j
  own : ∀ (i : Nat) (c : SendCall) (s : Nat), S.calls[i]? = some c → c.pc.live = true → c.pc.sender = some s → s ∉ S.aborted → regAt S.reg c.key = some s
  fresh : ∀ (i : Nat) (c : SendCall) (s : Nat), S.calls[i]? = some c → c.pc.live = true → c.pc.sender = some s → s ∉ S.over
  past : ∀ s ∈ S.over, s < S.tids.length

theorem calls_set {l : List SendCall} {i : Nat} {c a : SendCall} (h : l[i]? = some c) (j : Nat) :
    (l.set i a)[j]? = if i = j then some a else l[j]? := by
  have hi : i < l.length := by
    rw [List.getElem?_eq_some_iff] at h; exact h.1
  rw [List.getElem?_set]
  by_cases hj : i = j
  · subst hj; simp [hi]
  · simp [hj]

theorem goto_inv {S : SendSys} (h : SInv S) {i : Nat} {c : SendCall} (hi : S.calls[i]? = some c) (pc : SPc)
    (hpc : ∀ s, pc.sender = some s → s < S.tids.length ∧ (∀ j d, j ≠ i → S.calls[j]? = some d → d.pc.sender ≠ some s) ∧
      (pc.live = true → s ∉ S.over ∧ (s ∉ S.aborted → regAt S.reg c.key = some s))) : SInv (S.goto i c pc) := by
  have hs : ∀ j d, (S.goto i c pc).calls[j]? = some d → (i = j ∧ d = { c with pc := pc }) ∨ (j ≠ i ∧ S.calls[j]? = some d) := by
    intro j d hd
    simp only [SendSys.goto] at hd
    rw [calls_set hi] at hd
    by_cases hj : i = j
    · rw [if_pos hj] at hd; exact Or.inl ⟨hj, (Option.some.inj hd).symm⟩
    · rw [if_neg hj] at hd; exact Or.inr ⟨fun e => hj e.symm, hd⟩
  refine ⟨?_, ?_, ?_, ?_, h.past⟩
  · intro j d s hd hp
    rcases hs j d hd with ⟨_, rfl⟩ | ⟨_, hd⟩
    · exact (hpc s hp).1
    · exact h.lt j d s hd hp
  · intro j k d e s hd he hp hq
    rcases hs j d hd with ⟨rfl, rfl⟩ | ⟨hj, hd⟩ <;> rcases hs k e he with ⟨rfl, rfl⟩ | ⟨hk, he⟩
    · rfl
    · exact absurd hq ((hpc s hp).2.1 k e hk he)
    · exact absurd hp ((hpc s hq).2.1 j d hj hd)
    · exact h.uniq j k d e s hd he hp hq
  · intro j d s hd hl hp ha
    rcases hs j d hd with ⟨_, rfl⟩ | ⟨_, hd⟩
    · exact ((hpc s hp).2.2 hl).2 ha
    · exact h.own j d s hd hl hp ha
  · intro j d s hd hl hp
    rcases hs j d hd with ⟨_, rfl⟩ | ⟨_, hd⟩
    · exact ((hpc s hp).2.2 hl).1
    · exact h.fresh j d s hd hl hp

/-- Changes of the map that leave the senders of live calls. -/
theorem reg_inv {S : SendSys} (h : SInv S) (reg : List (Nat × Nat))
    (hr : ∀ (i : Nat) (c : SendCall) (s : Nat), S.calls[i]? = some c → c.pc.live = true → c.pc.sender = some s → s ∉ S.aborted → regAt S.reg c.key = some s → regAt reg c.key = some s) :
    SInv { S with reg := reg } :=
  ⟨h.lt, h.uniq, fun i c s hi hl hp ha => hr i c s hi hl hp ha (h.own i c s hi hl hp ha), h.fresh, h.past⟩

theorem create_inv {S : SendSys} (h : SInv S) (key tid : Nat) : SInv (S.create key tid).1 ∧ (S.create key tid).1.calls = S.calls ∧
    (S.create key tid).1.aborted = S.aborted ∧
    ∀ s, (S.create key tid).2.1 = eOK → (S.create key tid).2.2 = some s → s < (S.create key tid).1.tids.length ∧
      (∀ (j : Nat) d, S.calls[j]? = some d → d.pc.sender ≠ some s) ∧ s ∉ (S.create key tid).1.over ∧ regAt (S.create key tid).1.reg key = some s := by
  unfold SendSys.create
  split
  · exact ⟨h, rfl, rfl, fun s hc => absurd hc (show ¬(eQUOTA_EXCEEDED = eOK) by decide)⟩
  · split
    · exact ⟨h, rfl, rfl, fun s hc => absurd hc (show ¬(eALREADY_EXISTS = eOK) by decide)⟩
    · rename_i hn
      refine ⟨⟨?_, h.uniq, ?_, h.fresh, ?_⟩, rfl, rfl, ?_⟩
      · intro i c s hi hp; have := h.lt i c s hi hp; simp only [List.length_append, List.length_singleton]; omega
      · intro i c s hi hl hp ha
        have := h.own i c s hi hl hp ha
        have hk : key ≠ c.key := fun e => by rw [e, this] at hn; cases hn
        unfold regAt at this ⊢
        rw [List.find?_cons_of_neg (by simpa using hk)]; exact this
      · intro s hs; have := h.past s hs; simp only [List.length_append, List.length_singleton]; omega
      · intro s _ hs
        cases hs
        refine ⟨by simp, fun j d hd hp => ?_, fun hm => ?_, by simp [regAt]⟩
        · have := h.lt j d _ hd hp; omega
        · have := h.past _ hm; omega

/-- A release by name removes the sender that is meant: the one of the call that has ended, the
one that was aborted to be replaced, one whose transfer has ended, or none. -/
def SendSys.Meant (S : SendSys) : SendEv → Prop
  | .call .. => True
  | .next i _ _ => ∀ c, S.calls[i]? = some c → match c.pc with
    | .drop _ => ∀ s, regAt S.reg c.key = some s → s ∈ S.aborted ∨ s ∈ S.over
    | .ended own _ => ∀ s, regAt S.reg c.key = some s → s = own ∨ s ∈ S.aborted ∨ s ∈ S.over
    | _ => True
  | .stale => True
  | .release key => ∀ s, regAt S.reg key = some s → s ∈ S.aborted ∨ s ∈ S.over

/-- Executions with this. -/
def SendSys.AllMeant : SendSys → List SendEv → Prop
  | _, [] => True
  | S, e :: es => S.Meant e ∧ SendSys.AllMeant (S.step e) es

theorem drop_inv {S : SendSys} (h : SInv S) (key : Nat) (hm : ∀ s, regAt S.reg key = some s → s ∈ S.aborted ∨ s ∈ S.over ∨
    ∀ (j : Nat) d, S.calls[j]? = some d → d.pc.live = true → d.pc.sender ≠ some s) : SInv { S with reg := regDrop S.reg key } := by
  refine reg_inv h _ fun i c s hi hl hp ha hr => ?_
  by_cases hk : c.key = key
  · rw [hk] at hr
    rcases hm s hr with h1 | h1 | h1
    · exact absurd h1 ha
    · exact absurd h1 (h.fresh i c s hi hl hp)
    · exact absurd hp (h1 i c hi hl)
  · rw [regAt_drop_other _ hk]; exact hr

theorem send_inv_step {S : SendSys} (h : SInv S) (e : SendEv) (hm : S.Meant e) : SInv (S.step e) := by
  have hnone : ∀ {S : SendSys} (_ : SInv S) {i : Nat} {c : SendCall} (_ : S.calls[i]? = some c) (pc : SPc), pc.sender = none → SInv (S.goto i c pc) :=
    fun h _ _ hi pc hp => goto_inv h hi pc fun s hs => by rw [hp] at hs; cases hs
  cases e with
  | call key tid terminate =>
    have hs : ∀ (j : Nat) d, (S.calls ++ [{ key := key, tid := tid, terminate := terminate }])[j]? = some d → S.calls[j]? = some d ∨ d.pc = .start := by
      intro j d hd
      rw [List.getElem?_append] at hd
      split at hd
      · exact Or.inl hd
      · have := List.mem_of_getElem? hd
        simp only [List.mem_singleton] at this
        rw [this]; exact Or.inr rfl
    refine ⟨?_, ?_, ?_, ?_, h.past⟩
    · intro i c s hi hp
      rcases hs i c hi with h1 | h1
      · exact h.lt i c s h1 hp
      · rw [h1] at hp; cases hp
    · intro i j c d s hi hj hp hq
      rcases hs i c hi with h1 | h1
      · rcases hs j d hj with h2 | h2
        · exact h.uniq i j c d s h1 h2 hp hq
        · rw [h2] at hq; cases hq
      · rw [h1] at hp; cases hp
    · intro i c s hi hl hp ha
      rcases hs i c hi with h1 | h1
      · exact h.own i c s h1 hl hp ha
      · rw [h1] at hp; cases hp
    · intro i c s hi hl hp
      rcases hs i c hi with h1 | h1
      · exact h.fresh i c s h1 hl hp
      · rw [h1] at hp; cases hp
  | stale =>
    refine reg_inv h _ fun i c s hi hl hp ha hr => regAt_keep hr ?_
    simpa using h.fresh i c s hi hl hp
  | release key => exact drop_inv h key fun s hs => (hm s hs).imp id Or.inl
  | next i initCode result =>
    simp only [SendSys.step]
    cases hi : S.calls[i]? with
    | none => exact h
    | some c =>
      have hm' := hm c hi
      simp only
      have hcr : ∀ s, SInv (S.create c.key c.tid).1 → (S.create c.key c.tid).2.1 = eOK → (S.create c.key c.tid).2.2 = some s →
          SInv ((S.create c.key c.tid).1.goto i c (.created s)) := by
        intro s h1 hc hs
        obtain ⟨_, hcl, hab, hnew⟩ := create_inv h c.key c.tid
        obtain ⟨k1, k2, k3, k4⟩ := hnew s hc hs
        refine goto_inv h1 (by rw [hcl]; exact hi) _ fun s' hs' => ?_
        cases hs'
        exact ⟨k1, fun j d _ hd => k2 j d (by rw [← hcl]; exact hd), fun _ => ⟨k3, fun _ => k4⟩⟩
      obtain ⟨h1, hcl, hab, hnew⟩ := create_inv h c.key c.tid
      have hi' : (S.create c.key c.tid).1.calls[i]? = some c := by rw [hcl]; exact hi
      unfold SendSys.advance
      split
      · simp only
        split
        · split
          · exact hnone h1 hi' _ rfl
          · split
            · exact hnone h1 hi' _ rfl
            · exact hnone h1 hi' _ rfl
        · split
          · exact hnone h1 hi' _ rfl
          · rename_i hok
            split
            · exact hnone h1 hi' _ rfl
            · rename_i hs
              exact hcr _ h1 (by simpa using hok) hs
      · rename_i old hpc
        refine hnone (S := { S with aborted := old :: S.aborted }) ⟨h.lt, h.uniq, fun i c s hi hl hp ha => h.own i c s hi hl hp ?_, h.fresh, h.past⟩ hi _ rfl
        exact fun hh => ha (List.mem_cons_of_mem _ hh)
      · rename_i old hpc
        rw [hpc] at hm'
        exact hnone (drop_inv h c.key fun s hs => (hm' s hs).imp id Or.inl) hi _ rfl
      · simp only
        split
        · exact hnone h1 hi' _ rfl
        · rename_i hok
          split
          · exact hnone h1 hi' _ rfl
          · rename_i hs
            exact hcr _ h1 (by simpa using hok) hs
      · rename_i s hpc
        split
        · exact hnone h hi _ rfl
        · refine goto_inv h hi _ fun s' hs' => ?_
          cases hs'
          have hp : c.pc.sender = some s := by rw [hpc]; rfl
          have hl : c.pc.live = true := by rw [hpc]; rfl
          exact ⟨h.lt i c s hi hp, fun j d hj hd hq => hj (h.uniq j i d c s hd hi hq hp), fun _ => ⟨h.fresh i c s hi hl hp, h.own i c s hi hl hp⟩⟩
      · rename_i s hpc
        have hp : c.pc.sender = some s := by rw [hpc]; rfl
        have h2 : SInv (S.goto i c (.ended s result)) := by
          refine goto_inv h hi _ fun s' hs' => ?_
          cases hs'
          exact ⟨h.lt i c s hi hp, fun j d hj hd hq => hj (h.uniq j i d c s hd hi hq hp), fun hl => by cases hl⟩
        refine ⟨h2.lt, h2.uniq, h2.own, fun j d t hj hl ht => ?_, fun t ht => ?_⟩
        · intro hmem
          rcases List.mem_cons.1 hmem with rfl | hmem
          · have hje : j = i := by
              refine h2.uniq j i d { c with pc := .ended t result } t hj ?_ ht rfl
              simp only [SendSys.goto]; rw [calls_set hi, if_pos rfl]
            subst hje
            simp only [SendSys.goto] at hj
            rw [calls_set hi, if_pos rfl] at hj
            cases hj; cases hl
          · exact h2.fresh j d t hj hl ht hmem
        · rcases List.mem_cons.1 ht with rfl | ht
          · exact h.lt i c _ hi hp
          · exact h.past t ht
      · rename_i s r hpc
        rw [hpc] at hm'
        have hp : c.pc.sender = some s := by rw [hpc]; rfl
        refine hnone (drop_inv h c.key fun t ht => ?_) hi _ rfl
        rcases hm' t ht with rfl | h3 | h3
        · refine Or.inr (Or.inr fun j d hj hl hq => ?_)
          have := h.uniq j i d c _ hj hi hq hp
          subst this
          rw [hi] at hj; cases hj; rw [hpc] at hl; cases hl
        · exact Or.inl h3
        · exact Or.inr (Or.inl h3)
      · exact h

theorem send_inv_run (evs : List SendEv) : ∀ {S : SendSys}, SInv S → S.AllMeant evs → SInv (S.run evs) := by
  induction evs with
  | nil => intro S h _; exact h
  | cons e es ih => intro S h hm; exact ih (send_inv_step h e hm.1) hm.2

theorem send_init_inv (max : Nat) : SInv { max := max } :=
  ⟨fun i c s hi => by simp at hi, fun i j c d s hi => by simp at hi, fun i c s hi => by simp at hi, fun i c s hi => by simp at hi, fun s hs => by cases hs⟩

/-- C89: any number of threads call `wdtSend` for any destinations, with and without replacing
what is there; stale senders are released.  Of two calls for the same destination whose
transfers run at the same time, the sender of one has been aborted.  Missing: executions in which
a release, which names a destination and not a sender, hits another sender than the one that was
meant (`C89_violated_terminate`, `C89_violated_stale`). -/
theorem C89_one_at_a_time_partial (max : Nat) (evs : List SendEv) (hm : ({ max := max } : SendSys).AllMeant evs) (i j : Nat) (c d : SendCall) (s t : Nat)
    (hi : (({ max := max } : SendSys).run evs).calls[i]? = some c) (hj : (({ max := max } : SendSys).run evs).calls[j]? = some d) (hij : i ≠ j)
    (hk : c.key = d.key) (hc : c.pc = .running s) (hd : d.pc = .running t) :
    s ∈ (({ max := max } : SendSys).run evs).aborted ∨ t ∈ (({ max := max } : SendSys).run evs).aborted := by
  have h := send_inv_run evs (send_init_inv max) hm
  by_cases hs : s ∈ (({ max := max } : SendSys).run evs).aborted
  · exact Or.inl hs
  · by_cases ht : t ∈ (({ max := max } : SendSys).run evs).aborted
    · exact Or.inr ht
    · have h1 := h.own i c s hi (by rw [hc]; rfl) (by rw [hc]; rfl) hs
      have h2 := h.own j d t hj (by rw [hd]; rfl) (by rw [hd]; rfl) ht
      rw [hk, h2] at h1
      cases h1
      exact absurd (h.uniq i j c d s hi hj (by rw [hc]; rfl) (by rw [hd]; rfl)) hij

/-! ### The quota -/

theorem create_max (S : SendSys) (key tid : Nat) (h : 0 < S.max → S.reg.length ≤ S.max) :
    (S.create key tid).1.max = S.max ∧ (0 < S.max → (S.create key tid).1.reg.length ≤ S.max) := by
  unfold SendSys.create
  split
  · exact ⟨rfl, h⟩
  · split
    · exact ⟨rfl, h⟩
    · refine ⟨rfl, fun h0 => ?_⟩
      simp only [List.length_cons]
      have := h h0
      omega

theorem max_step (S : SendSys) (e : SendEv) (h : 0 < S.max → S.reg.length ≤ S.max) :
    (S.step e).max = S.max ∧ (0 < S.max → (S.step e).reg.length ≤ S.max) := by
  have hle : ∀ p : Nat × Nat → Bool, 0 < S.max → (S.reg.filter p).length ≤ S.max := fun p h0 =>
    Nat.le_trans (List.length_filter_le _ _) (h h0)
  have hd : ∀ k, 0 < S.max → (regDrop S.reg k).length ≤ S.max := fun k h0 => hle _ h0
  cases e with
  | call => exact ⟨rfl, h⟩
  | stale => exact ⟨rfl, hle _⟩
  | release key => exact ⟨rfl, hd key⟩
  | next i a b =>
    simp only [SendSys.step]
    split
    · exact ⟨rfl, h⟩
    · rename_i c _
      have hc := create_max S c.key c.tid h
      unfold SendSys.advance
      simp only
      (repeat' split) <;> first
        | exact ⟨rfl, h⟩
        | exact ⟨rfl, hd _⟩
        | exact hc

theorem max_run (evs : List SendEv) : ∀ S : SendSys, (0 < S.max → S.reg.length ≤ S.max) →
    (S.run evs).max = S.max ∧ (0 < S.max → (S.run evs).reg.length ≤ S.max) := by
  induction evs with
  | nil => intro S h; exact ⟨rfl, h⟩
  | cons e es ih =>
    intro S h
    obtain ⟨h1, h2⟩ := max_step S e h
    obtain ⟨h3, h4⟩ := ih (S.step e) (by rw [h1]; exact h2)
    exact ⟨h3.trans h1, fun h0 => by rw [h1] at h4; exact h4 h0⟩

/-- Senders of calls that have yet to run or run, and were not aborted. -/
def SendSys.working (S : SendSys) : List Nat :=
  S.calls.filterMap fun c => match c.pc with
    | .created s => if s ∈ S.aborted then none else some s
    | .running s => if s ∈ S.aborted then none else some s
    | _ => none

theorem nodup_filterMap {l : List SendCall} {f : SendCall → Option Nat}
    (h : ∀ (i j : Nat) c d s, l[i]? = some c → l[j]? = some d → f c = some s → f d = some s → i = j) : (l.filterMap f).Nodup := by
  induction l with
  | nil => simp
  | cons c l ih =>
    have hih := ih fun i j c d s hi hj hf hg => by
      have := h (i + 1) (j + 1) c d s (by simpa using hi) (by simpa using hj) hf hg
      omega
    rw [List.filterMap_cons]
    split
    · exact hih
    · rename_i s hs
      refine List.nodup_cons.2 ⟨fun hm => ?_, hih⟩
      obtain ⟨d, hd, hf⟩ := List.mem_filterMap.1 hm
      obtain ⟨j, hj⟩ := List.mem_iff_getElem?.1 hd
      have := h 0 (j + 1) c d s rfl (by simpa using hj) hs hf
      omega

/-- C89, the quota: with the same restriction no more senders work at a time than the controller
allows, not counting those that were aborted. -/
theorem C89_quota_partial (max : Nat) (hmax : 0 < max) (evs : List SendEv) (hm : ({ max := max } : SendSys).AllMeant evs) :
    (({ max := max } : SendSys).run evs).working.length ≤ max := by
  have h := send_inv_run evs (send_init_inv max) hm
  obtain ⟨_, h2⟩ := max_run evs { max := max } (fun _ => by simp)
  refine Nat.le_trans ?_ (h2 hmax)
  generalize ({ max := max } : SendSys).run evs = S at h
  have hf : ∀ (c : SendCall) s, (match c.pc with
      | .created s => if s ∈ S.aborted then none else some s
      | .running s => if s ∈ S.aborted then none else some s
      | _ => none) = some s → c.pc.live = true ∧ c.pc.sender = some s ∧ s ∉ S.aborted := by
    intro c s hc
    split at hc
    · split at hc
      · cases hc
      · rename_i e ha; cases hc; rw [e]; exact ⟨rfl, rfl, ha⟩
    · split at hc
      · cases hc
      · rename_i e ha; cases hc; rw [e]; exact ⟨rfl, rfl, ha⟩
    · cases hc
  have hnd : S.working.Nodup := by
    refine nodup_filterMap fun i j c d s hi hj hc hd => ?_
    obtain ⟨_, h1, _⟩ := hf c s hc
    obtain ⟨_, h2, _⟩ := hf d s hd
    exact h.uniq i j c d s hi hj h1 h2
  have hsub : S.working ⊆ S.reg.map (·.2) := by
    intro s hs
    obtain ⟨c, hc, hfc⟩ := List.mem_filterMap.1 hs
    obtain ⟨i, hi⟩ := List.mem_iff_getElem?.1 hc
    obtain ⟨h1, h2, h3⟩ := hf c s hfc
    exact List.mem_map.2 ⟨_, regAt_mem (h.own i c s hi h1 h2 h3), rfl⟩
  have := (hnd.subperm hsub).length_le
  simpa using this

/-! ### Without replacing -/

/-- Calls that replace nothing; nobody else releases senders. -/
def SendEv.plain : SendEv → Bool
  | .call _ _ t => !t
  | .next .. => true
  | _ => false

/-- What is kept then. -/
structure PlainInv (S : SendSys) : Prop where
  inv : SInv S
  none : S.aborted = []
  calm : ∀ (i : Nat) (c : SendCall), S.calls[i]? = some c → c.terminate = false ∧ (∀ o, c.pc ≠ .found o) ∧ (∀ o, c.pc ≠ .drop o) ∧ c.pc ≠ .retry
  kept : ∀ (i : Nat) (c : SendCall) (s : Nat), S.calls[i]? = some c → c.pc.sender = some s → regAt S.reg c.key = some s

theorem plain_meant {S : SendSys} (h : PlainInv S) {e : SendEv} (he : e.plain = true) : S.Meant e := by
  cases e with
  | call => trivial
  | stale => cases he
  | release => cases he
  | next i a b =>
    intro c hc
    split
    · rename_i o ho; exact absurd ho ((h.calm i c hc).2.2.1 o)
    · rename_i s r ho
      intro t ht
      rw [h.kept i c s hc (by rw [ho]; rfl)] at ht
      cases ht; exact Or.inl rfl
    · trivial

theorem plain_step {S : SendSys} (h : PlainInv S) {e : SendEv} (he : e.plain = true) : PlainInv (S.step e) := by
  have hinv := send_inv_step h.inv e (plain_meant h he)
  cases e with
  | stale => cases he
  | release => cases he
  | call key tid t =>
    have hs : ∀ (j : Nat) d, (S.calls ++ [{ key, tid, terminate := t }])[j]? = some d → S.calls[j]? = some d ∨ d = { key, tid, terminate := t } := by
      intro j d hd
      rw [List.getElem?_append] at hd
      split at hd
      · exact Or.inl hd
      · have := List.mem_of_getElem? hd
        simp only [List.mem_singleton] at this
        exact Or.inr this
    refine ⟨hinv, h.none, fun j d hd => ?_, fun j d s hd hp => ?_⟩
    · rcases hs j d hd with h1 | rfl
      · exact h.calm j d h1
      · simp only [SendEv.plain, Bool.not_eq_true'] at he
        simp [he]
    · rcases hs j d hd with h1 | rfl
      · exact h.kept j d s h1 hp
      · cases hp
  | next i a b =>
    have hgo : ∀ (T : SendSys) (c : SendCall) (pc : SPc), S.calls[i]? = some c → SInv (T.goto i c pc) → T.calls = S.calls → T.aborted = [] →
        ((∀ o, pc ≠ .found o) ∧ (∀ o, pc ≠ .drop o) ∧ pc ≠ .retry) →
        (∀ (j : Nat) d s, j ≠ i → S.calls[j]? = some d → d.pc.sender = some s → regAt T.reg d.key = some s) →
        (∀ s, pc.sender = some s → regAt T.reg c.key = some s) → PlainInv (T.goto i c pc) := by
      intro T c pc hi hv hcl hab hpc ho hn
      have hs : ∀ j d, (T.goto i c pc).calls[j]? = some d → (d = { c with pc := pc }) ∨ (j ≠ i ∧ S.calls[j]? = some d) := by
        intro j d hd
        simp only [SendSys.goto] at hd
        rw [hcl, calls_set hi] at hd
        by_cases hj : i = j
        · rw [if_pos hj] at hd; exact Or.inl (Option.some.inj hd).symm
        · rw [if_neg hj] at hd; exact Or.inr ⟨fun e => hj e.symm, hd⟩
      refine ⟨hv, hab, fun j d hd => ?_, fun j d s hd hp => ?_⟩
      · rcases hs j d hd with rfl | ⟨_, h1⟩
        · exact ⟨(h.calm i c hi).1, hpc⟩
        · exact h.calm j d h1
      · rcases hs j d hd with rfl | ⟨hj, h1⟩
        · exact hn s hp
        · exact ho j d s hj h1 hp
    simp only [SendSys.step] at hinv ⊢
    cases hi : S.calls[i]? with
    | none => rw [hi] at hinv; exact h
    | some c =>
      rw [hi] at hinv
      simp only at hinv ⊢
      obtain ⟨k1, k2, k3, k4⟩ := h.calm i c hi
      have hsame : ∀ (j : Nat) d s, j ≠ i → S.calls[j]? = some d → d.pc.sender = some s → regAt S.reg d.key = some s := fun j d s _ hd hp => h.kept j d s hd hp
      cases hpc : c.pc with
      | found o => exact absurd hpc (k2 o)
      | drop o => exact absurd hpc (k3 o)
      | retry => exact absurd hpc k4
      | returned r => simp only [SendSys.advance, hpc]; exact h
      | created s =>
        simp only [SendSys.advance, hpc] at hinv ⊢
        split
        · rename_i h0; rw [if_pos h0] at hinv
          exact hgo S c _ hi hinv rfl h.none (by simp) hsame (by simp [SPc.sender])
        · rename_i h0; rw [if_neg h0] at hinv
          refine hgo S c _ hi hinv rfl h.none (by simp) hsame fun t ht => ?_
          cases ht; exact h.kept i c s hi (by rw [hpc]; rfl)
      | running s =>
        simp only [SendSys.advance, hpc] at hinv ⊢
        refine hgo { S with over := s :: S.over } c _ hi hinv rfl h.none (by simp) hsame fun t ht => ?_
        cases ht; exact h.kept i c s hi (by rw [hpc]; rfl)
      | ended s r =>
        simp only [SendSys.advance, hpc] at hinv ⊢
        refine hgo { S with reg := regDrop S.reg c.key } c _ hi hinv rfl h.none (by simp) (fun j d t hj hd hp => ?_) (by simp [SPc.sender])
        have h1 := h.kept j d t hd hp
        have h2 := h.kept i c s hi (by rw [hpc]; rfl)
        by_cases hk : d.key = c.key
        · rw [hk, h2] at h1; cases h1
          exact absurd (h.inv.uniq j i d c s hd hi hp (by rw [hpc]; rfl)) hj
        · simp only; rw [regAt_drop_other _ hk]; exact h1
      | start =>
        obtain ⟨_, hcl, hab, hnew⟩ := create_inv h.inv c.key c.tid
        have hkeep : ∀ (j : Nat) d s, j ≠ i → S.calls[j]? = some d → d.pc.sender = some s → regAt (S.create c.key c.tid).1.reg d.key = some s := by
          intro j d s _ hd hp
          have h1 := h.kept j d s hd hp
          unfold SendSys.create
          split
          · exact h1
          · split
            · exact h1
            · rename_i hn
              have hk : c.key ≠ d.key := fun e => by rw [e, h1] at hn; cases hn
              unfold regAt at h1 ⊢
              simp only
              rw [List.find?_cons_of_neg (by simpa using hk)]; exact h1
        simp only [SendSys.advance, hpc, k1, Bool.false_eq_true, and_false, if_false] at hinv ⊢
        split
        · rename_i h0; rw [if_pos h0] at hinv
          exact hgo _ c _ hi hinv hcl (hab.trans h.none) (by simp) hkeep (by simp [SPc.sender])
        · rename_i h0; rw [if_neg h0] at hinv
          cases hs : (S.create c.key c.tid).2.2 with
          | none =>
            rw [hs] at hinv
            exact hgo _ c _ hi hinv hcl (hab.trans h.none) (by simp) hkeep (by simp [SPc.sender])
          | some s =>
            rw [hs] at hinv
            refine hgo _ c _ hi hinv hcl (hab.trans h.none) (by simp) hkeep fun t ht => ?_
            cases ht
            exact (hnew s (by simpa using h0) hs).2.2.2

theorem plain_run (evs : List SendEv) : ∀ {S : SendSys}, PlainInv S → (∀ e ∈ evs, e.plain = true) → S.AllMeant evs ∧ PlainInv (S.run evs) := by
  induction evs with
  | nil => intro S h _; exact ⟨trivial, h⟩
  | cons e es ih =>
    intro S h he
    have h1 := plain_step h (he e (by simp))
    obtain ⟨h2, h3⟩ := ih h1 fun x hx => he x (by simp [hx])
    exact ⟨⟨plain_meant h (he e (by simp)), h2⟩, h3⟩

/-- C89, without replacing (the default of `wdtSend`), and with no releases by others: at most
one transfer runs for a destination, the quota is kept, and the sender of a call stays the one
under its name until the call itself releases it. -/
theorem C89_without_replacing (max : Nat) (evs : List SendEv) (hp : ∀ e ∈ evs, e.plain = true) :
    (∀ (i j : Nat) (c d : SendCall) (s t : Nat), (({ max := max } : SendSys).run evs).calls[i]? = some c → (({ max := max } : SendSys).run evs).calls[j]? = some d →
      c.key = d.key → c.pc = .running s → d.pc = .running t → i = j) ∧
    (0 < max → (({ max := max } : SendSys).run evs).working.length ≤ max) ∧
    (∀ (i : Nat) (c : SendCall) (s : Nat), (({ max := max } : SendSys).run evs).calls[i]? = some c → c.pc.sender = some s →
      regAt (({ max := max } : SendSys).run evs).reg c.key = some s) := by
  obtain ⟨hm, h⟩ := plain_run evs (S := { max := max }) ⟨send_init_inv max, rfl, fun i c hi => by simp at hi, fun i c s hi => by simp at hi⟩ hp
  refine ⟨fun i j c d s t hi hj hk hc hd => ?_, fun h0 => C89_quota_partial max h0 evs hm, h.kept⟩
  by_cases hij : i = j
  · exact hij
  · have := C89_one_at_a_time_partial max evs hm i j c d s t hi hj hij hk hc hd
    rw [h.none] at this
    simp at this

/-- A call that found a sender under its name is told so, and nothing changes. -/
example : (({ } : SendSys).run [.call 1 7 false, .next 0 0 0, .next 0 0 0, .call 1 8 false, .next 1 0 0]).calls.map (·.pc) =
    [.running 0, .returned eALREADY_EXISTS] := by decide +kernel

/-- The hypotheses of `C89_one_at_a_time_partial` can be met by a call that replaces another, with
both running at the same time, the first one aborted. -/
example : ∃ evs, ({ max := 5 } : SendSys).AllMeant evs ∧
    (({ max := 5 } : SendSys).run evs).calls.map (fun c => (c.key, c.pc)) = [(1, .running 0), (1, .running 1)] ∧
    (({ max := 5 } : SendSys).run evs).aborted = [0] ∧ (({ max := 5 } : SendSys).run evs).working = [1] := by
  refine ⟨[.call 1 7 false, .next 0 0 0, .next 0 0 0, .call 1 8 true, .next 1 0 0, .next 1 0 0, .next 1 0 0, .next 1 0 0, .next 1 0 0], ?_, by decide +kernel⟩
  refine ⟨trivial, ?_, ?_, trivial, ?_, ?_, ?_, ?_, ?_, trivial⟩ <;> intro c hc <;>
    simp [SendSys.step, SendSys.advance, SendSys.create, SendSys.goto, regAt, regDrop, eOK, eALREADY_EXISTS] at hc <;> subst hc <;>
    simp [SendSys.step, SendSys.advance, SendSys.create, SendSys.goto, regAt, regDrop, eOK, eALREADY_EXISTS]

/-- C89 violated: a call that replaces another.  The replaced call, when its transfer has ended,
releases the sender of the call that replaced it; then a third call, which does not ask to replace
anything, is admitted.  Two transfers to one destination run, neither aborted; with one to another
destination three run where the controller allows two. -/
theorem C89_violated_terminate : ∃ evs, (({ max := 2 } : SendSys).run evs).calls.map (fun c => (c.key, c.terminate, c.pc)) =
      [(1, false, .returned 3), (1, true, .running 1), (1, false, .running 2), (2, false, .running 3)] ∧
    (({ max := 2 } : SendSys).run evs).aborted = [0] ∧ (({ max := 2 } : SendSys).run evs).working = [1, 2, 3] :=
  ⟨[.call 1 7 false, .next 0 0 0, .next 0 0 0, .call 1 8 true, .next 1 0 0, .next 1 0 0, .next 1 0 0, .next 1 0 0, .next 1 0 0,
    .next 0 0 3, .next 0 0 0, .call 1 9 false, .next 2 0 0, .next 2 0 0, .call 2 9 false, .next 3 0 0, .next 3 0 0], by decide +kernel⟩

/-- C89 violated, without replacing: stale senders are released between the end of a transfer and
the return of its call; the call then releases the sender of the next one. -/
theorem C89_violated_stale : ∃ evs, (∀ e ∈ evs, e.plain = true ∨ e = .stale) ∧
    (({ } : SendSys).run evs).calls.map (fun c => (c.key, c.pc)) = [(1, .returned 0), (1, .running 1), (1, .running 2)] ∧
    (({ } : SendSys).run evs).aborted = [] :=
  ⟨[.call 1 7 false, .next 0 0 0, .next 0 0 0, .next 0 0 0, .stale, .call 1 8 false, .next 1 0 0, .next 1 0 0, .next 0 0 0,
    .call 1 9 false, .next 2 0 0, .next 2 0 0], by decide +kernel⟩

/-- C89 violated: when the quota is used up, a call cannot replace a sender, because the quota is
looked at first: with a quota of one a running transfer can never be replaced. -/
theorem C89_violated_full : ∃ evs, (({ max := 1 } : SendSys).run evs).calls.map (fun c => (c.key, c.terminate, c.pc)) =
      [(1, false, .running 0), (1, true, .returned eQUOTA_EXCEEDED)] ∧ (({ max := 1 } : SendSys).run evs).aborted = [] :=
  ⟨[.call 1 7 false, .next 0 0 0, .next 0 0 0, .call 1 8 true, .next 1 0 0], by decide +kernel⟩

/-! ### Receivers -/

/-- A call that waits for its receiver, or is about to release it. -/
def RfPc.busy : RfPc → Option Nat
  | .got r => some r
  | .finished r => some r
  | _ => none

/-- No two calls of `wdtReceiveFinish` are in progress for the same name. -/
def RecvSys.Lone (S : RecvSys) : RecvEv → Prop
  | .next i => ∀ key, S.calls[i]? = some (key, .start) → ∀ (j : Nat) pc, S.calls[j]? = some (key, pc) → pc.busy = none
  | _ => True

/-- Executions with this. -/
def RecvSys.AllLone : RecvSys → List RecvEv → Prop
  | _, [] => True
  | S, e :: es => S.Lone e ∧ RecvSys.AllLone (S.step e) es

structure RecvInv (S : RecvSys) : Prop where
  none : S.killed = []
  own : ∀ (i k : Nat) pc r, S.calls[i]? = some (k, pc) → pc.busy = some r → regAt S.reg k = some r
  lone : ∀ (i j k : Nat) pc pc' r r', S.calls[i]? = some (k, pc) → S.calls[j]? = some (k, pc') → pc.busy = some r → pc'.busy = some r' → i = j
  over : ∀ (i k : Nat) r, S.calls[i]? = some (k, .finished r) → r ∈ S.over
  ret : ∀ (i k : Nat) r, S.calls[i]? = some (k, .returned (some r)) → r ∈ S.over

theorem recv_set {l : List (Nat × RfPc)} {i : Nat} {c a : Nat × RfPc} (h : l[i]? = some c) {j : Nat} {d : Nat × RfPc} (hd : (l.set i a)[j]? = some d) :
    (i = j ∧ d = a) ∨ (j ≠ i ∧ l[j]? = some d) := by
  have hi : i < l.length := by
    rw [List.getElem?_eq_some_iff] at h; exact h.1
  rw [List.getElem?_set] at hd
  by_cases hj : i = j
  · subst hj; simp [hi] at hd; exact Or.inl ⟨rfl, hd.symm⟩
  · simp [hj] at hd; exact Or.inr ⟨fun e => hj e.symm, hd⟩

theorem recv_inv_step {S : RecvSys} (h : RecvInv S) (e : RecvEv) (hl : S.Lone e) : RecvInv (S.step e) := by
  cases e with
  | start key =>
    simp only [RecvSys.step]
    split
    · exact h
    · rename_i hn
      refine ⟨h.none, fun i k pc r hi hb => ?_, h.lone, h.over, h.ret⟩
      have h1 := h.own i k pc r hi hb
      have hk : key ≠ k := fun e => by rw [e, h1] at hn; cases hn
      unfold regAt at h1 ⊢
      simp only
      rw [List.find?_cons_of_neg (by simpa using hk)]; exact h1
  | over r => exact ⟨h.none, h.own, h.lone, fun i k t hi => List.mem_cons_of_mem _ (h.over i k t hi), fun i k t hi => List.mem_cons_of_mem _ (h.ret i k t hi)⟩
  | finish key =>
    have hs : ∀ (j : Nat) d, (S.calls ++ [(key, .start)])[j]? = some d → S.calls[j]? = some d ∨ d.2 = .start := by
      intro j d hd
      rw [List.getElem?_append] at hd
      split at hd
      · exact Or.inl hd
      · have := List.mem_of_getElem? hd
        simp only [List.mem_singleton] at this
        rw [this]; exact Or.inr rfl
    refine ⟨h.none, fun i k pc r hi hb => ?_, fun i j k pc pc' r r' hi hj hb hb' => ?_, fun i k r hi => ?_, fun i k r hi => ?_⟩
    · rcases hs _ _ hi with h1 | h1
      · exact h.own i k pc r h1 hb
      · simp only at h1; rw [h1] at hb; cases hb
    · rcases hs _ _ hi with h1 | h1
      · rcases hs _ _ hj with h2 | h2
        · exact h.lone i j k pc pc' r r' h1 h2 hb hb'
        · simp only at h2; rw [h2] at hb'; cases hb'
      · simp only at h1; rw [h1] at hb; cases hb
    · rcases hs _ _ hi with h1 | h1
      · exact h.over i k r h1
      · cases h1
    · rcases hs _ _ hi with h1 | h1
      · exact h.ret i k r h1
      · cases h1
  | next i =>
    simp only [RecvSys.step]
    cases hi : S.calls[i]? with
    | none => exact h
    | some c =>
      obtain ⟨key, pc⟩ := c
      have hquiet : ∀ pc', pc'.busy = none → (∀ r, pc' ≠ .finished r) → (∀ r, pc' = .returned (some r) → r ∈ S.over) →
          RecvInv { S with calls := S.calls.set i (key, pc') } := by
        intro pc' hb hf hr
        refine ⟨h.none, fun j k p r hj hbj => ?_, fun j j' k p p' r r' hj hj' hbj hbj' => ?_, fun j k r hj => ?_, fun j k r hj => ?_⟩
        · rcases recv_set hi hj with ⟨_, h1⟩ | ⟨_, h1⟩
          · cases h1; rw [hb] at hbj; cases hbj
          · exact h.own j k p r h1 hbj
        · rcases recv_set hi hj with ⟨_, h1⟩ | ⟨_, h1⟩
          · cases h1; rw [hb] at hbj; cases hbj
          · rcases recv_set hi hj' with ⟨_, h2⟩ | ⟨_, h2⟩
            · cases h2; rw [hb] at hbj'; cases hbj'
            · exact h.lone j j' k p p' r r' h1 h2 hbj hbj'
        · rcases recv_set hi hj with ⟨_, h1⟩ | ⟨_, h1⟩
          · cases h1; exact absurd rfl (hf r)
          · exact h.over j k r h1
        · rcases recv_set hi hj with ⟨_, h1⟩ | ⟨_, h1⟩
          · cases h1; exact hr r rfl
          · exact h.ret j k r h1
      cases pc with
      | returned r => exact h
      | start =>
        simp only
        cases hr : regAt S.reg key with
        | none => exact hquiet _ rfl (by simp) (by simp)
        | some r =>
          have hlone := hl key hi
          refine ⟨h.none, fun j k p t hj hbj => ?_, fun j j' k p p' t t' hj hj' hbj hbj' => ?_, fun j k t hj => ?_, fun j k t hj => ?_⟩
          · rcases recv_set hi hj with ⟨_, h1⟩ | ⟨_, h1⟩
            · cases h1; cases hbj; exact hr
            · exact h.own j k p t h1 hbj
          · rcases recv_set hi hj with ⟨h0, h1⟩ | ⟨h0, h1⟩
            · rcases recv_set hi hj' with ⟨h3, h2⟩ | ⟨_, h2⟩
              · omega
              · cases h1; rw [hlone j' p' h2] at hbj'; cases hbj'
            · rcases recv_set hi hj' with ⟨h3, h2⟩ | ⟨_, h2⟩
              · cases h2; rw [hlone j p h1] at hbj; cases hbj
              · exact h.lone j j' k p p' t t' h1 h2 hbj hbj'
          · rcases recv_set hi hj with ⟨_, h1⟩ | ⟨_, h1⟩
            · cases h1
            · exact h.over j k t h1
          · rcases recv_set hi hj with ⟨_, h1⟩ | ⟨_, h1⟩
            · cases h1
            · exact h.ret j k t h1
      | got r =>
        simp only
        split
        · rename_i hov
          refine ⟨h.none, fun j k p t hj hbj => ?_, fun j j' k p p' t t' hj hj' hbj hbj' => ?_, fun j k t hj => ?_, fun j k t hj => ?_⟩
          · rcases recv_set hi hj with ⟨_, h1⟩ | ⟨_, h1⟩
            · cases h1; cases hbj; exact h.own i key _ r hi rfl
            · exact h.own j k p t h1 hbj
          · rcases recv_set hi hj with ⟨h0, h1⟩ | ⟨h0, h1⟩
            · rcases recv_set hi hj' with ⟨h3, h2⟩ | ⟨_, h2⟩
              · omega
              · cases h1; rw [← h0]; exact h.lone i j' key _ p' _ t' hi h2 rfl hbj'
            · rcases recv_set hi hj' with ⟨h3, h2⟩ | ⟨_, h2⟩
              · cases h2; rw [← h3]; exact h.lone j i key p _ t _ h1 hi hbj rfl
              · exact h.lone j j' k p p' t t' h1 h2 hbj hbj'
          · rcases recv_set hi hj with ⟨_, h1⟩ | ⟨_, h1⟩
            · cases h1; exact hov
            · exact h.over j k t h1
          · rcases recv_set hi hj with ⟨_, h1⟩ | ⟨_, h1⟩
            · cases h1
            · exact h.ret j k t h1
        · exact h
      | finished r =>
        simp only
        have hown := h.own i key _ r hi rfl
        have hov := h.over i key r hi
        have hq := hquiet (.returned (some r)) rfl (by simp) (by intro t ht; cases ht; exact hov)
        have hd : ({ S.drop key with calls := S.calls.set i (key, .returned (some r)) } : RecvSys) =
            { S with calls := S.calls.set i (key, .returned (some r)), reg := regDrop S.reg key } := by
          simp only [RecvSys.drop, hown, hov, true_or, if_true]
        rw [hd]
        refine ⟨h.none, fun j k p t hj hbj => ?_, hq.lone, hq.over, hq.ret⟩
        have h1 := hq.own j k p t hj hbj
        by_cases hk : k = key
        · subst hk
          rcases recv_set hi hj with ⟨_, h2⟩ | ⟨h0, h2⟩
          · cases h2; cases hbj
          · exact absurd (h.lone j i k p _ t r h2 hi hbj rfl) h0
        · simp only; rw [regAt_drop_other _ hk]; exact h1

theorem recv_inv_run (evs : List RecvEv) : ∀ {S : RecvSys}, RecvInv S → S.AllLone evs → RecvInv (S.run evs) := by
  induction evs with
  | nil => intro S h _; exact h
  | cons e es ih => intro S h hm; exact ih (recv_inv_step h e hm.1) hm.2

/-- C90: receivers are started and finished under any names, in any order and by any number of
threads.  Finishing a transfer never destroys a receiver whose transfer runs, and
`wdtReceiveFinish` returns a result only when the transfer whose result it is has ended.
Missing: two calls of `wdtReceiveFinish` for the same name at the same time
(`C90_violated_twice`). -/
theorem C90_finish_partial (evs : List RecvEv) (hl : ({ } : RecvSys).AllLone evs) :
    (({ } : RecvSys).run evs).killed = [] ∧
    ∀ (i k : Nat) r, (({ } : RecvSys).run evs).calls[i]? = some (k, .returned (some r)) → r ∈ (({ } : RecvSys).run evs).over := by
  have h := recv_inv_run evs (S := { }) ⟨rfl, fun i k pc r hi => by simp at hi, fun i j k pc pc' r r' hi => by simp at hi, fun i k r hi => by simp at hi,
    fun i k r hi => by simp at hi⟩ hl
  exact ⟨h.none, h.ret⟩

/-- The hypotheses can be met: a name is used twice. -/
example : ∃ evs, ({ } : RecvSys).AllLone evs ∧ (({ } : RecvSys).run evs).calls = [(1, .returned (some 0)), (1, .returned (some 1))] := by
  refine ⟨[.start 1, .finish 1, .next 0, .over 0, .next 0, .next 0, .start 1, .finish 1, .next 1, .over 1, .next 1, .next 1], ?_, by decide +kernel⟩
  refine ⟨trivial, trivial, ?_, trivial, ?_, ?_, trivial, trivial, ?_, trivial, ?_, ?_, trivial⟩ <;> intro key hk j pc hj <;>
    simp [RecvSys.step, RecvSys.drop, regAt, regDrop] at hk hj <;>
    rcases j with _ | _ | j <;> simp_all [RfPc.busy] <;> (try (subst hk; simp at hj; subst hj; rfl))

/-- C90 violated: two threads call `wdtReceiveFinish` for the same name; the first returns, and a
new receiver is started under the name.  The second thread, which waited for the first receiver
as well, releases the new one: its transfer is aborted, and there is nothing left to finish. -/
theorem C90_violated_twice : ∃ evs, (({ } : RecvSys).run evs).killed = [1] ∧
    (({ } : RecvSys).run evs).calls = [(1, .returned (some 0)), (1, .returned (some 0)), (1, .returned none)] :=
  ⟨[.start 1, .finish 1, .finish 1, .next 0, .next 1, .over 0, .next 0, .next 0, .start 1, .next 1, .next 1, .finish 1, .next 2], by decide +kernel⟩

end Wdt
