import Verif.Lemmas.TransferLimits
/-
C108: which sender and receiver objects the resource controller gives to its callers.
`TrAlive h k n id o`: in the calls `h` the object `o` was made under this kind, namespace and identifier and has not been released
since.
-/
namespace Wdt

/-- No call fails a check (the totals are right whenever the controller is shut down). -/
theorem C108_no_check {max nsMax : RKind → Int} {h : List (TrOp × TrRes)} {s : TrCtl} (t : TrTrace (.start max nsMax) h s)
    (op : TrOp) : ∃ s' r, s.step op = .ok (s', r) := by
  obtain ⟨s', r, e, _⟩ := step_spec (trace_inv t).1 op
  exact ⟨s', r, e⟩

/-- `getSender` and `getReceiver` return the object made under the name and not released since, and nothing if there is none. -/
theorem C108_get {max nsMax : RKind → Int} {h : List (TrOp × TrRes)} {s s' : TrCtl} {k : RKind} {n id : Nat} {r : TrRes}
    (t : TrTrace (.start max nsMax) h s) (e : s.step (.get k n id) = .ok (s', r)) :
    ∃ p, r = .ptr p ∧ ∀ o, p = some o ↔ TrAlive h k n id o := by
  obtain ⟨hw, ha⟩ := trace_inv t
  simp only [TrCtl.step] at e
  rcases hx : s.ns n with _ | x
  · rw [hx] at e; cases e
    refine ⟨_, rfl, fun o => ?_⟩
    rw [ha]
    simp [TrCtl.Has, hx]
  · rw [hx] at e; cases e
    refine ⟨_, rfl, fun o => ?_⟩
    rw [ha]
    have : s.Has k n id o ↔ (id, o) ∈ x.map k := by simp [TrCtl.Has, hx]
    rw [this, ← find_key (hw.keys n x k hx)]
    constructor
    · intro h
      rw [Option.map_eq_some_iff] at h
      obtain ⟨a, h1, h2⟩ := h
      have := (find_key_fst h1).1
      rw [h1]
      obtain ⟨a1, a2⟩ := a
      dsimp only at this h2
      rw [this, h2]
    · intro h; rw [h]; rfl

/-- At most one object is alive under a name, and no object is alive under two names. -/
theorem C108_one {max nsMax : RKind → Int} {h : List (TrOp × TrRes)} {s : TrCtl} (t : TrTrace (.start max nsMax) h s)
    {k k' : RKind} {n n' id id' o o' : Nat} (h1 : TrAlive h k n id o) (h2 : TrAlive h k' n' id' o') :
    (k = k' ∧ n = n' ∧ id = id') ↔ o = o' := by
  obtain ⟨hw, ha⟩ := trace_inv t
  rw [ha] at h1 h2
  constructor
  · rintro ⟨rfl, rfl, rfl⟩
    obtain ⟨x, hx, hm⟩ := h1
    obtain ⟨y, hy, hm'⟩ := h2
    rw [hx] at hy; cases hy
    rw [← find_key (hw.keys n x k hx)] at hm hm'
    rw [hm] at hm'
    simpa using hm'
  · rintro rfl; exact hw.uniq _ _ _ _ _ _ _ h1 h2

/-- What `createSender` and `createReceiver` return. OK comes with an object that no call returned before, and only if nothing is
alive under the name; ALREADY_EXISTS comes with the object that is; otherwise there is no object, and NOT_FOUND means that
registration is required and missing. -/
theorem C108_create {max nsMax : RKind → Int} {h : List (TrOp × TrRes)} {s s' : TrCtl} {k : RKind} {n id : Nat} {r : TrRes}
    (t : TrTrace (.start max nsMax) h s) (e : s.step (.create k n id) = .ok (s', r)) :
    (∃ o, r = .made eOK (some o) ∧ (∀ p, ¬ TrAlive h k n id p) ∧ ∀ x ∈ h, ∀ k n id, ¬ TrMakes x k n id o) ∨
    (∃ o, r = .made eALREADY_EXISTS (some o) ∧ TrAlive h k n id o) ∨
    r = .made eQUOTA_EXCEEDED none ∨
    (r = .made eNOT_FOUND none ∧ TrStrict h = true ∧ ¬ TrKnown h n) := by
  obtain ⟨hw, ha⟩ := trace_inv t
  obtain ⟨hk, hs, hf⟩ := trace_known t
  obtain ⟨s2, c, o, e2, _, _, hc⟩ := tr_create_spec hw k n id
  simp only [TrCtl.step, Except.ok.injEq] at e
  rw [e] at e2
  cases e2
  rcases hc.cases with ⟨h1, h2, h3⟩ | ⟨h1, p, h2, h3⟩ | ⟨h1, h2⟩ | ⟨h1, h2, h3, h4⟩
  · subst h1 h2
    refine .inl ⟨_, rfl, fun p hp => h3 p ((ha _ _ _ _).1 hp), fun x hx k n id hm => ?_⟩
    have := hf x hx k n id _ hm
    omega
  · subst h1 h2; exact .inr (.inl ⟨p, rfl, (ha _ _ _ _).2 h3⟩)
  · subst h1 h2; exact .inr (.inr (.inl rfl))
  · subst h1 h2; exact .inr (.inr (.inr ⟨rfl, hs.trans h3, fun g => (hk n).1 g h4⟩))

/-- After `hasSenderQuota` said yes, creating under a free name of a namespace that may be used succeeds, and under a name
in use gives the object in use. -/
theorem C108_quota_left_partial {max nsMax : RKind → Int} {h : List (TrOp × TrRes)} {s s1 s2 : TrCtl} {k : RKind} {n id : Nat} {r : TrRes}
    (t : TrTrace (.start max nsMax) h s) (q : s.step (.hasQuota k n) = .ok (s1, .quota true))
    (e : s1.step (.create k n id) = .ok (s2, r)) :
    (∀ o, TrAlive h k n id o → r = .made eALREADY_EXISTS (some o)) ∧
    ((∀ o, ¬ TrAlive h k n id o) → (TrStrict h = false ∨ TrKnown h n) → ∃ o, r = .made eOK (some o)) := by
  obtain ⟨hw, ha⟩ := trace_inv t
  obtain ⟨hk, hs, hf⟩ := trace_known t
  simp only [TrCtl.step, Except.ok.injEq, Prod.mk.injEq, TrRes.quota.injEq] at q
  obtain ⟨rfl, hq⟩ := q
  obtain ⟨s3, c, o, e2, _, _, hc⟩ := tr_create_spec hw k n id
  have e' := e
  simp only [TrCtl.step, Except.ok.injEq] at e'
  rw [e'] at e2
  cases e2
  refine ⟨fun p hp => ?_, fun hno hreg => ?_⟩
  · have h1 := hc.exists_ hq ⟨p, (ha _ _ _ _).1 hp⟩
    subst h1
    rcases C108_create t e with ⟨o', h2, _⟩ | ⟨o', h2, h3⟩ | h2 | ⟨h2, _⟩
    · cases h2
    · rw [h2, (C108_one t h3 hp).1 ⟨rfl, rfl, rfl⟩]
    · cases h2
    · cases h2
  · have h1 := hc.new hq (fun p hp => hno p ((ha _ _ _ _).2 hp)) (hreg.imp (fun g => hs.symm.trans g) (hk n).1)
    subst h1
    rcases C108_create t e with ⟨o', h2, _⟩ | ⟨o', h2, h3⟩ | h2 | ⟨h2, _⟩
    · exact ⟨o', h2⟩
    · cases h2
    · cases h2
    · cases h2

/-- Releasing succeeds exactly if something is alive under the name. -/
theorem C108_release {max nsMax : RKind → Int} {h : List (TrOp × TrRes)} {s s' : TrCtl} {k : RKind} {n id : Nat} {r : TrRes}
    (t : TrTrace (.start max nsMax) h s) (e : s.step (.release k n id) = .ok (s', r)) :
    ((∃ o, TrAlive h k n id o) ∧ r = .code eOK) ∨ ((∀ o, ¬ TrAlive h k n id o) ∧ r = .code eERROR) := by
  obtain ⟨hw, ha⟩ := trace_inv t
  simp only [TrCtl.step] at e
  rcases hx : s.ns n with _ | x
  · rw [hx] at e; cases e
    exact .inr ⟨fun o => by rw [ha]; simp [TrCtl.Has, hx], rfl⟩
  · rw [hx] at e
    dsimp only at e
    rcases hf : (x.map k).find? (·.1 == id) with _ | p
    · have hc : (x.release k id).2 = eNOT_FOUND := by unfold TrNs.release; rw [hf]
      rw [hc, if_neg (by decide)] at e
      cases e
      refine .inr ⟨fun o => ?_, rfl⟩
      rw [ha]
      have := (find_key_none id).1 hf o
      simpa [TrCtl.Has, hx] using this
    · have hc : (x.release k id).2 = eOK := by unfold TrNs.release; rw [hf]
      rw [hc, if_pos rfl] at e
      cases e
      obtain ⟨h1, h2⟩ := find_key_fst hf
      refine .inl ⟨⟨p.2, ?_⟩, rfl⟩
      rw [ha]
      exact ⟨x, hx, by rw [← h1]; exact h2⟩

/-- `getAllSenders` and `getAllReceivers` return each object alive in the namespace once, and no other. -/
theorem C108_all {max nsMax : RKind → Int} {h : List (TrOp × TrRes)} {s s' : TrCtl} {k : RKind} {n : Nat} {r : TrRes}
    (t : TrTrace (.start max nsMax) h s) (e : s.step (.getAll k n) = .ok (s', r)) :
    ∃ os, r = .ptrs os ∧ os.Nodup ∧ ∀ o, o ∈ os ↔ ∃ id, TrAlive h k n id o := by
  obtain ⟨hw, ha⟩ := trace_inv t
  simp only [TrCtl.step] at e
  rcases hx : s.ns n with _ | x
  · rw [hx] at e; cases e
    refine ⟨_, rfl, List.nodup_nil, fun o => ?_⟩
    simp [ha, TrCtl.Has, hx]
  · rw [hx] at e; cases e
    refine ⟨_, rfl, ?_, fun o => ?_⟩
    · refine List.Nodup.map_on ?_ (List.Nodup.of_map _ (hw.keys n x k hx))
      rintro ⟨i, o⟩ hi ⟨j, p⟩ hj he
      dsimp only at he
      subst he
      have := hw.uniq k n i k n j o ⟨x, hx, hi⟩ ⟨x, hx, hj⟩
      rw [this.2.2]
    · simp [ha, TrCtl.Has, hx]

/-- `getSendersIds` returns each identifier under which something is alive once, and no other. -/
theorem C108_ids {max nsMax : RKind → Int} {h : List (TrOp × TrRes)} {s s' : TrCtl} {k : RKind} {n : Nat} {r : TrRes}
    (t : TrTrace (.start max nsMax) h s) (e : s.step (.getIds k n) = .ok (s', r)) :
    ∃ is, r = .ids is ∧ is.Nodup ∧ ∀ id, id ∈ is ↔ ∃ o, TrAlive h k n id o := by
  obtain ⟨hw, ha⟩ := trace_inv t
  simp only [TrCtl.step] at e
  rcases hx : s.ns n with _ | x
  · rw [hx] at e; cases e
    exact ⟨_, rfl, List.nodup_nil, fun o => by simp [ha, TrCtl.Has, hx]⟩
  · rw [hx] at e; cases e
    exact ⟨_, rfl, hw.keys n x k hx, fun o => by simp [ha, TrCtl.Has, hx]⟩

/-- `releaseStaleSenders` and `releaseStaleReceivers` report exactly the identifiers whose object was alive and stale. -/
theorem C108_stale {max nsMax : RKind → Int} {h : List (TrOp × TrRes)} {s s' : TrCtl} {k : RKind} {n : Nat} {stale : Nat → Bool}
    {r : TrRes} (t : TrTrace (.start max nsMax) h s) (e : s.step (.releaseStale k n stale) = .ok (s', r)) :
    ∃ c is, r = .erased c is ∧ is.Nodup ∧ (∀ id, id ∈ is ↔ ∃ o, TrAlive h k n id o ∧ stale o = true) ∧
      ((c = eOK ∧ TrKnown h n) ∨ (c = eNOT_FOUND ∧ ¬ TrKnown h n)) := by
  obtain ⟨hw, ha⟩ := trace_inv t
  obtain ⟨hk, _, _⟩ := trace_known t
  simp only [TrCtl.step] at e
  rcases hx : s.ns n with _ | x
  · rw [hx] at e; cases e
    exact ⟨_, _, rfl, List.nodup_nil, fun o => by simp [ha, TrCtl.Has, hx], .inr ⟨rfl, fun g => (hk n).1 g hx⟩⟩
  · rw [hx] at e; cases e
    refine ⟨_, _, rfl, ?_, fun o => by simp [ha, TrCtl.Has, hx, TrNs.releaseStale], .inl ⟨rfl, (hk n).2 (by rw [hx]; simp)⟩⟩
    exact ((List.filter_sublist).map _).nodup (hw.keys n x k hx)

/-- `getCounts` returns the numbers of namespaces that exist and of objects that are alive. -/
theorem C108_counts {max nsMax : RKind → Int} {h : List (TrOp × TrRes)} {s s' : TrCtl} {r : TrRes}
    (t : TrTrace (.start max nsMax) h s) (e : s.step .counts = .ok (s', r)) :
    ∃ (ns : List Nat) (l : RKind → List (Nat × Nat × Nat)), r = .counts ns.length (l .sender).length (l .receiver).length ∧
      ns.Nodup ∧ (∀ n, n ∈ ns ↔ TrKnown h n) ∧ ∀ k, (l k).Nodup ∧ ∀ n id o, (n, id, o) ∈ l k ↔ TrAlive h k n id o := by
  obtain ⟨hw, ha⟩ := trace_inv t
  obtain ⟨hk, _, _⟩ := trace_known t
  simp only [TrCtl.step] at e
  cases e
  choose l h1 h2 h3 using fun k => WF.list hw k
  refine ⟨s.names, l, by rw [h3, h3], hw.names, fun n => by rw [hk, hw.dom], fun k => ⟨h1 k, fun n id o => by rw [h2, ha]⟩⟩

/-- `hasSenderQuota` and `hasReceiverQuota` say yes exactly if one more object fits under the limits in force (`TrRoom`: the
limits set last, against the objects alive). -/
theorem C108_quota {max nsMax : RKind → Int} {h : List (TrOp × TrRes)} {s s' : TrCtl} {k : RKind} {n : Nat} {r : TrRes}
    (t : TrTrace (.start max nsMax) h s) (e : s.step (.hasQuota k n) = .ok (s', r)) :
    ∃ b, r = .quota b ∧ (b = true ↔ TrRoom max nsMax h k n) := by
  simp only [TrCtl.step] at e
  cases e
  exact ⟨_, rfl, (room_iff t k n).1.symm⟩

/-- An object is made only if it fits under the limits in force, and QUOTA_EXCEEDED is returned only if it does not. -/
theorem C108_limits {max nsMax : RKind → Int} {h : List (TrOp × TrRes)} {s s' : TrCtl} {k : RKind} {n id : Nat} {c : ErrCode}
    {o : Option Nat} (t : TrTrace (.start max nsMax) h s) (e : s.step (.create k n id) = .ok (s', .made c o)) :
    (c = eOK → TrRoom max nsMax h k n) ∧ (c = eQUOTA_EXCEEDED → ¬ TrRoom max nsMax h k n) := by
  simp only [TrCtl.step, Except.ok.injEq] at e
  obtain ⟨_, _, _, h1, h2⟩ := create_limits s k n id e
  obtain ⟨r1, r2⟩ := room_iff t k n
  refine ⟨fun g => r1.2 (h1 g).1, fun g hr => ?_⟩
  have := h2 g
  rw [r2, r1.1 hr] at this
  cases this

/-- Limits are met and lifted in real histories. -/
example : ∃ s, TrTrace (.start (fun _ => 0) (fun _ => 1))
    [(.create .sender 1 6, .made eOK (some 1)), (.setNsMax .sender 1 2, .void), (.create .sender 1 6, .made eQUOTA_EXCEEDED none),
     (.create .sender 1 5, .made eOK (some 0))] s :=
  ⟨_, .cons (.cons (.cons (.cons .nil rfl) rfl) rfl) rfl⟩

/-- A controller of which a user asked one sender at a time, with one alive. -/
def trEx : TrCtl := ((TrCtl.start (fun _ => 1) (fun _ => 0)).create .sender 7 3).1

theorem trEx_trace : TrTrace (.start (fun _ => 1) (fun _ => 0)) [(.create .sender 7 3, .made eOK (some 0))] trEx :=
  .cons .nil rfl

/-- The object in use is not returned when the limit is reached: the caller gets QUOTA_EXCEEDED and nothing to abort, although the
code says "Return it so the old one can potentially be aborted". -/
theorem C108_violated_hidden_by_quota :
    TrAlive [(.create .sender 7 3, .made eOK (some 0))] .sender 7 3 0 ∧
      (match trEx.step (.create .sender 7 3) with | .ok (_, r) => some r | .error _ => none) = some (.made eQUOTA_EXCEEDED none) ∧
      (match trEx.step (.get .sender 7 3) with | .ok (_, r) => some r | .error _ => none) = some (.ptr (some 0)) :=
  ⟨.inl rfl, rfl, rfl⟩

/-- Histories with several objects exist, and the answers depend on them. -/
example : ∃ s, TrTrace (.start (fun _ => 0) (fun _ => 0))
    [(.get .sender 1 5, .ptr (some 3)), (.getAll .sender 1, .ptrs [3, 1]), (.create .sender 1 5, .made eOK (some 3)),
     (.get .sender 1 5, .ptr none), (.release .sender 1 5, .code eOK), (.create .sender 1 5, .made eALREADY_EXISTS (some 0)),
     (.create .receiver 1 5, .made eOK (some 2)), (.create .sender 1 6, .made eOK (some 1)), (.create .sender 1 5, .made eOK (some 0))] s :=
  ⟨_, .cons (.cons (.cons (.cons (.cons (.cons (.cons (.cons (.cons .nil rfl) rfl) rfl) rfl) rfl) rfl) rfl) rfl) rfl⟩

example : ∃ s, TrTrace (.start (fun _ => 0) (fun _ => 0))
    [(.counts, .counts 1 1 0), (.releaseStale .sender 1 (fun o => o == 0), .erased eOK [5]), (.counts, .counts 1 2 0),
     (.create .sender 1 6, .made eOK (some 1)), (.hasQuota .sender 1, .quota true), (.create .sender 1 5, .made eOK (some 0)),
     (.register 1, .code eOK), (.create .sender 1 5, .made eNOT_FOUND none), (.setStrict true, .void)] s :=
  ⟨_, .cons (.cons (.cons (.cons (.cons (.cons (.cons (.cons (.cons .nil rfl) rfl) rfl) rfl) rfl) rfl) rfl) rfl) rfl⟩

end Wdt
