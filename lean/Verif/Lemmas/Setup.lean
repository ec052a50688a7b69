import Verif.Model.Setup
import Verif.Props.SocketListen
/-
Lemmas about setting up a transfer.
-/
namespace Wdt

theorem toI32_id {v : Int} (h1 : -2147483648 ≤ v) (h2 : v ≤ 2147483647) : toI32 v = v := by
  unfold toI32; omega

theorem bindRest_port (h : LHost) (p skip : Nat) (l : List Nat) (s : LSock) : (bindRest h p skip l s).port = s.port := by
  induction l generalizing s with
  | nil => rfl
  | cons fam rest ih =>
    simp only [bindRest]
    split
    · exact ih s
    · split
      · exact (ih _).trans rfl
      · exact (ih _).trans rfl

theorem bindRest_keeps (h : LHost) (p skip : Nat) (l : List Nat) (s : LSock) (f : LFd) (hf : f ∈ s.fds) :
    f ∈ (bindRest h p skip l s).fds := by
  induction l generalizing s with
  | nil => exact hf
  | cons fam rest ih =>
    simp only [bindRest]
    split
    · exact ih s hf
    · split
      · exact ih _ (List.mem_append_left _ hf)
      · exact ih _ hf

theorem bindFirst_port (h : LHost) (l : List Nat) (s : LSock) (h1 : s.fds = []) :
    ((bindFirst h l s).fds = [] → (bindFirst h l s).port = s.port) ∧
    ((bindFirst h l s).fds ≠ [] → ∃ k, (bindFirst h l s).port = h.pick k) := by
  induction l generalizing s with
  | nil => exact ⟨fun _ => rfl, fun h => absurd h1 h⟩
  | cons fam rest ih =>
    simp only [bindFirst]
    have next := ih { s with tries := s.tries + 1 } h1
    split
    · split
      · split
        · refine ⟨fun he => ?_, fun _ => ⟨s.tries, bindRest_port ..⟩⟩
          rename_i a l' hl
          have := bindRest_keeps h (h.pick s.tries) fam (a :: l') (LSock.add { s with port := h.pick s.tries } ⟨s.tries, fam, h.pick s.tries⟩)
            ⟨s.tries, fam, h.pick s.tries⟩ (by simp [LSock.add])
          rw [he] at this
          simp at this
        · exact next
      · exact next
    · exact next

/-- What a call of `listen` can do to a socket that does not listen. -/
theorem listenSock_spec (h : LHost) (static : Bool) (s : LSock) (h1 : s.fds = []) (h2 : s.openFds = []) :
    ((listenSock h static s).1 = eOK → Listens h (listenSock h static s).2 ∧
      ((static = true ∧ s.port ≠ 0 ∧ (listenSock h static s).2.port = s.port) ∨ ∃ k, (listenSock h static s).2.port = h.pick k)) ∧
    ((listenSock h static s).1 ≠ eOK → (listenSock h static s).2.fds = [] ∧ (listenSock h static s).2.openFds = [] ∧
      (listenSock h static s).2.port = s.port) := by
  have hc := C77_listen h static s h1 h2
  refine ⟨fun ho => ⟨(hc.1 ho).1, ?_⟩, fun ho => ⟨?_, hc.2 ho, ?_⟩⟩
  · by_cases hs : static = true ∧ s.port ≠ 0
    · exact .inl ⟨hs.1, hs.2, (hc.1 ho).2 hs.1 hs.2⟩
    · right
      have hp : (if static = true then s.port else 0) = 0 := by
        by_cases hst : static = true
        · rw [if_pos hst]; exact Decidable.byContradiction fun hne => hs ⟨hst, hne⟩
        · rw [if_neg hst]
      have hne := (hc.1 ho).1.any
      unfold listenSock at hne ⊢
      rw [if_neg (by simp [h1])] at hne ⊢
      simp only [hp] at hne ⊢
      cases hl : h.lookup 0 with
      | none => rw [hl] at hne; exact absurd h1 hne
      | some l =>
        rw [hl] at hne
        simp only [if_true] at hne ⊢
        have hb := bindFirst_port h l s h1
        split
        · rename_i he
          rw [if_pos he] at hne
          exact absurd he hne
        · rename_i he
          exact hb.2 he
  · unfold listenSock at ho ⊢
    rw [if_neg (by simp [h1])] at ho ⊢
    simp only [] at ho ⊢
    generalize (if static = true then s.port else 0) = p at ho ⊢
    cases hl : h.lookup p with
    | none => exact h1
    | some l =>
      rw [hl] at ho
      simp only [] at ho ⊢
      generalize (if p = 0 then bindFirst h l s else bindRest h p 0 l s) = s' at ho ⊢
      by_cases he : s'.fds = []
      · rw [if_pos he]; exact he
      · rw [if_neg he] at ho; exact absurd rfl ho
  · unfold listenSock at ho ⊢
    rw [if_neg (by simp [h1])] at ho ⊢
    simp only [] at ho ⊢
    generalize (if static = true then s.port else 0) = p at ho ⊢
    cases hl : h.lookup p with
    | none => rfl
    | some l =>
      rw [hl] at ho
      simp only [] at ho ⊢
      have hp : ∀ s', s' = (if p = 0 then bindFirst h l s else bindRest h p 0 l s) → s'.fds = [] → s'.port = s.port := by
        intro s' hs' he
        subst hs'
        by_cases h0 : p = 0
        · rw [if_pos h0] at he ⊢
          exact (bindFirst_port h l s h1).1 he
        · rw [if_neg h0]
          exact bindRest_port ..
      generalize (if p = 0 then bindFirst h l s else bindRest h p 0 l s) = s' at ho hp ⊢
      by_cases he : s'.fds = []
      · rw [if_pos he]; exact hp _ rfl he
      · rw [if_neg he] at ho; exact absurd rfl ho

theorem listenSock_again (h : LHost) (static : Bool) (s : LSock) (h1 : s.fds ≠ []) : listenSock h static s = (eOK, s) := by
  unfold listenSock; rw [if_pos h1]

/-- A port on which a thread listens: the one asked for, or one that the system chose. -/
def PortFrom (h : LHost) (static : Bool) (asked got : Nat) : Prop :=
  (static = true ∧ asked ≠ 0 ∧ got = asked) ∨ ∃ k, got = h.pick k

theorem listenTries_spec (h : LHost) (static : Bool) (n : Nat) (s : LSock) (h1 : s.fds = []) (h2 : s.openFds = []) :
    ((listenTries h static n s).fds ≠ [] → Listens h (listenTries h static n s) ∧ PortFrom h static s.port (listenTries h static n s).port) ∧
    ((listenTries h static n s).fds = [] → (listenTries h static n s).openFds = [] ∧ (listenTries h static n s).port = s.port) := by
  induction n generalizing s with
  | zero => exact ⟨fun h => absurd h1 h, fun _ => ⟨h2, rfl⟩⟩
  | succ n ih =>
    simp only [listenTries]
    have hl := listenSock_spec h static s h1 h2
    split
    · rename_i hc
      obtain ⟨a, b⟩ := hl.1 hc
      exact ⟨fun _ => ⟨a, b⟩, fun he => absurd he a.any⟩
    · rename_i hc
      obtain ⟨a, b, c⟩ := hl.2 hc
      have := ih _ a b
      rw [c] at this
      exact this

theorem threadInit_spec (h : LHost) (static : Bool) (m p : Int) :
    ((threadInit h static m p).1 = eOK → Listens h (threadInit h static m p).2 ∧
      PortFrom h static p.toNat (threadInit h static m p).2.port) ∧
    ((threadInit h static m p).1 ≠ eOK → (threadInit h static m p).1 = eERROR ∧ (threadInit h static m p).2.fds = [] ∧
      (threadInit h static m p).2.openFds = [] ∧ (threadInit h static m p).2.port = p.toNat) := by
  unfold threadInit
  have ht := listenTries_spec h static m.toNat { port := p.toNat } rfl rfl
  generalize listenTries h static m.toNat { port := p.toNat } = s at ht ⊢
  simp only [] at ht ⊢
  by_cases hs : s.fds = []
  · obtain ⟨h2, h3⟩ := ht.2 hs
    have hl := listenSock_spec h static s hs h2
    by_cases hc : (listenSock h static s).1 = eOK
    · obtain ⟨a, b⟩ := hl.1 hc
      rw [h3] at b
      exact ⟨fun _ => ⟨a, b⟩, fun hn => absurd (by rw [if_pos hc]) hn⟩
    · obtain ⟨a, b, c⟩ := hl.2 hc
      refine ⟨fun hn => ?_, fun _ => ⟨by rw [if_neg hc], a, b, c.trans h3⟩⟩
      rw [if_neg hc] at hn
      exact absurd hn (by decide)
  · rw [listenSock_again _ _ _ hs]
    exact ⟨fun _ => ht.1 hs, fun hn => absurd (by rw [if_pos rfl]) hn⟩

/-- A thread can listen if some family can be bound. -/
theorem bindRest_finds (h : LHost) (p : Nat) (l : List Nat) (s : LSock) (fam : Nat) (hf : fam ∈ l) (h0 : fam ≠ 0)
    (ha : ∀ k, h.attempt k fam p = true) : (bindRest h p 0 l s).fds ≠ [] := by
  induction l generalizing s with
  | nil => cases hf
  | cons x rest ih =>
    simp only [bindRest]
    rcases List.mem_cons.mp hf with rfl | hf
    · rw [if_neg h0, if_pos (ha _)]
      have := bindRest_keeps h p 0 rest (s.add ⟨s.tries, fam, p⟩) ⟨s.tries, fam, p⟩ (by simp [LSock.add])
      intro he
      rw [he] at this
      cases this
    · split
      · exact ih s hf
      · split
        · exact ih _ hf
        · exact ih _ hf

theorem bindFirst_finds (h : LHost) (l : List Nat) (s : LSock) (fam : Nat) (hf : fam ∈ l) (h1 : s.fds = [])
    (ha : ∀ k, h.attempt k fam 0 = true) (hn : ∀ k, h.name k = true) (hl : ∀ k, ∃ a l, h.lookup (h.pick k) = some (a :: l)) :
    (bindFirst h l s).fds ≠ [] := by
  induction l generalizing s with
  | nil => cases hf
  | cons x rest ih =>
    have done : h.attempt s.tries x 0 = true → (bindFirst h (x :: rest) s).fds ≠ [] := by
      intro hx
      obtain ⟨a, l, hl⟩ := hl s.tries
      simp only [bindFirst]
      rw [if_pos hx, if_pos (hn _)]
      simp only [hl]
      have := bindRest_keeps h (h.pick s.tries) x (a :: l) (LSock.add { s with port := h.pick s.tries } ⟨s.tries, x, h.pick s.tries⟩)
        ⟨s.tries, x, h.pick s.tries⟩ (by simp [LSock.add])
      intro he
      rw [he] at this
      cases this
    by_cases hx : h.attempt s.tries x 0 = true
    · exact done hx
    · rcases List.mem_cons.mp hf with rfl | hf
      · exact absurd (ha _) hx
      · simp only [bindFirst]
        rw [if_neg hx]
        exact ih _ hf h1

/-! ### Threads -/

theorem initThreads_length (o : RecvOpts) (e : RecvEnv) (i : Nat) (ps : List Int) : (initThreads o e i ps).length = ps.length := by
  induction ps generalizing i with
  | nil => rfl
  | cons p ps ih => simp [initThreads, ih]

theorem initThreads_get (o : RecvOpts) (e : RecvEnv) (i : Nat) (ps : List Int) (k : Nat) :
    (initThreads o e i ps)[k]? = ps[k]?.map (threadInit (e.net (i + k)) o.staticPorts o.maxRetries) := by
  induction ps generalizing i k with
  | nil => simp [initThreads]
  | cons p ps ih =>
    cases k with
    | zero => simp [initThreads]
    | succ k =>
      simp only [initThreads, List.getElem?_cons_succ]
      rw [ih]
      congr 2
      congr 1
      omega

theorem portsCode_ok (ths : List (ErrCode × LSock)) : portsCode ths = eOK ↔ ∀ t ∈ ths, t.1 = eOK := by
  unfold portsCode
  simp only []
  have key : (ths.filter fun t => decide (t.1 = eOK)).length = ths.length ↔ ∀ t ∈ ths, t.1 = eOK := by
    rw [List.length_filter_eq_length_iff]
    simp
  by_cases hc : (ths.filter fun t => decide (t.1 = eOK)).length = ths.length
  · rw [if_neg (by simpa using hc)]
    exact ⟨fun _ => key.1 hc, fun _ => rfl⟩
  · rw [if_pos hc]
    refine ⟨fun h => ?_, fun h => absurd (key.2 h) hc⟩
    split at h
    · exact absurd h (by decide)
    · exact absurd h (by decide)

theorem portsCode_cases (ths : List (ErrCode × LSock)) :
    portsCode ths = eOK ∨ (portsCode ths = eFEWER_PORTS ∧ ∃ t ∈ ths, t.1 = eOK) ∨ (portsCode ths = eERROR ∧ ∀ t ∈ ths, t.1 ≠ eOK) := by
  unfold portsCode
  simp only []
  split
  · split
    · rename_i h
      right; right
      refine ⟨rfl, ?_⟩
      simpa using h
    · rename_i h
      right; left
      refine ⟨rfl, ?_⟩
      have h' : (ths.filter fun t => decide (t.1 = eOK)) ≠ [] := fun he => h (by rw [he]; rfl)
      obtain ⟨t, ht⟩ := List.exists_mem_of_ne_nil _ h'
      rw [List.mem_filter] at ht
      exact ⟨t, ht.1, by simpa using ht.2⟩
  · exact .inl rfl

end Wdt
