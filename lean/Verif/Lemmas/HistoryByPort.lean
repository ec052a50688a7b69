import Verif.Model.HistoryByPort
import Verif.Lemmas.History
/-
Lemmas about `HistoryByPort.lean`.
-/
namespace Wdt

theorem setCheckpoint_inUse {h h' : Hist} {cp : Checkpoint} {g : Bool} {c : CpRes} {l : List (Source × Source)}
    (e : setCheckpoint h cp g = .ok (c, h', l)) : h'.inUse = h.inUse := by
  unfold setCheckpoint at e
  split at e
  · cases e; rfl
  · split at e
    · cases e
    · cases e; rfl
    · split at e
      · cases e
      · cases e; rfl

theorem validateCp_total {last : Option Checkpoint} {cp : Checkpoint} {g : Bool} (hn : CpNonneg cp) :
    ∃ c, validateCp last cp g = .ok c := by
  unfold validateCp
  have := hn.2
  split
  · exact ⟨_, rfl⟩
  · split
    · exact ⟨_, rfl⟩
    · split
      · exact ⟨_, rfl⟩
      · split
        · split
          · exact ⟨_, rfl⟩
          · split <;> exact ⟨_, rfl⟩
        · rw [if_neg (by omega)]
          split <;> exact ⟨_, rfl⟩

theorem setCheckpoint_total {h : Hist} {cp : Checkpoint} {g : Bool} (hn : CpNonneg cp) :
    ∃ r, setCheckpoint h cp g = .ok r := by
  unfold setCheckpoint
  split
  · exact ⟨_, rfl⟩
  · obtain ⟨c, hc⟩ := validateCp_total (last := h.lastCp) (g := g) hn
    rw [hc]
    have := hn.1
    cases c with
    | invalid => exact ⟨_, rfl⟩
    | ok => dsimp only; rw [if_neg (by omega)]; exact ⟨_, rfl⟩
    | noProgress => dsimp only; rw [if_neg (by omega)]; exact ⟨_, rfl⟩

theorem hpOp_inUse {h h' : Hist} {o : HpOp} (e : hpOp h o = .ok h') : h'.inUse = h.inUse := by
  cases o with
  | add s =>
    simp only [hpOp, Except.ok.injEq] at e
    subst e
    unfold addSource
    split <;> rfl
  | localCp cp =>
    simp only [hpOp] at e
    cases hs : setCheckpoint h cp false with
    | error f => rw [hs] at e; cases e
    | ok r =>
      obtain ⟨c, h2, l⟩ := r
      rw [hs] at e
      cases e
      exact setCheckpoint_inUse hs
  | markAll => cases e; rfl

theorem hpFold_isSome (ports : List Int) : ∀ (m : Int → Option Hist) (q : Int),
    (ports.foldl hpEmplace m) q = if q ∈ ports then some ((m q).getD {}) else m q := by
  induction ports with
  | nil => intro m q; simp
  | cons p ps ih =>
    intro m q
    rw [List.foldl_cons, ih]
    unfold hpEmplace
    by_cases h1 : q ∈ ps <;> by_cases h2 : q = p <;> simp [h1, h2]

/-- Every thread has a history, every history a thread, and a history is in use as long as its thread
has not ended. -/
structure HpInv (s : HpSys) : Prop where
  has : ∀ (t : Nat) (p : Int), s.ports[t]? = some p → ∃ h, s.hists p = some h
  own : ∀ p h, s.hists p = some h → p ∈ s.ports
  act : ∀ t : Nat, s.ph t ≠ .run → ∃ p, s.ports[t]? = some p
  wt : ∀ t c cs, s.ph t = .wait c cs → ∃ h, s.hists c.port = some h
  use : s.ports.Nodup → ∀ (t : Nat) (p : Int) (h : Hist), s.ports[t]? = some p → s.hists p = some h → (h.inUse = true ↔ s.ph t ≠ .ended)

theorem HpInv.init (ports : List Int) : HpInv (hpInit ports) := by
  have e : ∀ q, (hpInit ports).hists q = if q ∈ ports then some {} else none := by
    intro q
    show (ports.foldl hpEmplace (fun _ => none)) q = _
    rw [hpFold_isSome]; rfl
  refine ⟨?_, ?_, fun t ht => absurd rfl ht, fun t c cs h => (by cases h), ?_⟩
  · intro t p hp
    refine ⟨{}, ?_⟩
    rw [e, if_pos]
    exact List.mem_of_getElem? hp
  · intro p h hh
    rw [e] at hh
    split at hh
    · assumption
    · cases hh
  · intro _ t p h hp hh
    rw [e] at hh
    split at hh
    · cases hh
      exact ⟨fun _ hc => (by cases hc), fun _ => rfl⟩
    · cases hh

/-- How a step changes the accounts. -/
theorem HpInv.hists {s : HpSys} (hi : HpInv s) {p : Int} {h0 h1 : Hist} (h0e : s.hists p = some h0) (ph' : Nat → HpPh)
    (ha : ∀ t : Nat, ph' t ≠ .run → ∃ p, s.ports[t]? = some p)
    (hw : ∀ t c cs, ph' t = .wait c cs → c.port = p ∨ s.ph t = .wait c cs)
    (hu : s.ports.Nodup → ∀ t : Nat, s.ports[t]? = some p → (h1.inUse = true ↔ ph' t ≠ .ended))
    (ho : s.ports.Nodup → ∀ (t : Nat) (q : Int), s.ports[t]? = some q → q ≠ p → (ph' t = .ended ↔ s.ph t = .ended)) :
    HpInv { s with hists := hpSetH s.hists p h1, ph := ph' } := by
  refine ⟨?_, ?_, ha, ?_, ?_⟩
  · intro t q hq
    by_cases e : q = p
    · exact ⟨h1, by simp [hpSetH, e]⟩
    · obtain ⟨h, hh⟩ := hi.has t q hq
      exact ⟨h, by simp [hpSetH, e, hh]⟩
  · intro q h hh
    by_cases e : q = p
    · exact e ▸ hi.own p h0 h0e
    · simp only [hpSetH, e, if_false] at hh
      exact hi.own q h hh
  · intro t c cs hc
    by_cases e : c.port = p
    · exact ⟨h1, by simp [hpSetH, e]⟩
    · obtain ⟨h, hh⟩ := hi.wt t c cs ((hw t c cs hc).resolve_left e)
      exact ⟨h, by simp [hpSetH, e, hh]⟩
  · intro nd t q h hq hh
    dsimp only at hq hh ⊢
    by_cases e : q = p
    · subst e
      simp only [hpSetH, if_true, Option.some.injEq] at hh
      subst hh
      exact hu nd t hq
    · simp only [hpSetH, e, if_false] at hh
      rw [hi.use nd t q h hq hh, ne_eq, ne_eq, ho nd t q hq e]

theorem HpInv.phase {s : HpSys} (hi : HpInv s) (t : Nat) (x : HpPh) (ht : ∃ p, s.ports[t]? = some p)
    (hx : x ≠ .ended) (hw : ∀ c cs, x ≠ .wait c cs) (h0 : s.ph t ≠ .ended) : HpInv { s with ph := hpSetP s.ph t x } := by
  refine ⟨hi.has, hi.own, ?_, ?_, ?_⟩
  · intro u hu
    by_cases e : u = t
    · exact e ▸ ht
    · exact hi.act u (by simpa [hpSetP, e] using hu)
  · intro u c cs hc
    by_cases e : u = t
    · subst e
      exact absurd (by simpa [hpSetP] using hc) (hw c cs)
    · exact hi.wt u c cs (by simpa [hpSetP, e] using hc)
  · intro nd u q h hq hh
    dsimp only at hq hh ⊢
    rw [hi.use nd u q h hq hh]
    by_cases e : u = t
    · subst e; simp [hpSetP, hx, h0]
    · simp [hpSetP, e]

theorem nodup_port {l : List Int} (nd : l.Nodup) {t u : Nat} {p : Int} (ht : l[t]? = some p) (hu : l[u]? = some p) :
    t = u := by
  obtain ⟨h1, _⟩ := List.getElem?_eq_some_iff.1 ht
  exact (List.getElem?_inj h1 nd).1 (ht.trans hu.symm)

theorem HpInv.step {s s' : HpSys} {e : HpEv} (hi : HpInv s) (hs : hpStep s e = .ok s') : HpInv s' := by
  cases e with
  | op t o =>
    simp only [hpStep] at hs
    split at hs
    · rename_i p hph hp
      split at hs
      · cases hs
      · rename_i h hh
        split at hs
        · cases hs
        · rename_i h' ho
          cases hs
          refine hi.hists hh s.ph hi.act (fun _ _ _ h => Or.inr h) ?_ (fun _ _ _ _ _ => Iff.rfl)
          intro nd u hu
          rw [hpOp_inUse ho]
          exact hi.use nd u p h hu hh
    · cases hs
  | err t cps =>
    simp only [hpStep] at hs
    split at hs
    · rename_i p hph hp
      cases hs
      exact hi.phase t _ ⟨p, hp⟩ (by simp) (by simp) (by rw [hph]; simp)
    · cases hs
  | next t =>
    simp only [hpStep] at hs
    split at hs
    · rename_i hph
      cases hs
      exact hi.phase t _ (hi.act t (by rw [hph]; simp)) (by simp) (by simp) (by rw [hph]; simp)
    · rename_i c cs hph
      split at hs
      · cases hs
        exact hi.phase t _ (hi.act t (by rw [hph]; simp)) (by simp) (by simp) (by rw [hph]; simp)
      · rename_i h hh
        split at hs
        · cases hs
        · rename_i h' l hc
          cases hs
          refine hi.hists hh _ ?_ (fun u d ds hd => ?_) ?_ ?_
          rotate_left
          · by_cases e : u = t
            · left
              simp only [hpSetP, e, if_true, HpPh.wait.injEq] at hd
              rw [hd.1]
            · right; simpa [hpSetP, e] using hd
          rotate_right
          · intro u hu
            by_cases e : u = t
            · subst e; exact hi.act u (by rw [hph]; simp)
            · exact hi.act u (by simpa [hpSetP, e] using hu)
          · intro nd u hu
            rw [setCheckpoint_inUse hc, hi.use nd u c.port h hu hh]
            by_cases e : u = t
            · subst e; simp [hpSetP, hph]
            · simp [hpSetP, e]
          · intro nd u q hq hne
            by_cases e : u = t
            · subst e; simp [hpSetP, hph]
            · simp [hpSetP, e]
    · cases hs
  | wake t =>
    simp only [hpStep] at hs
    split at hs
    · rename_i c cs hph
      split at hs
      · cases hs
      · split at hs
        · cases hs
        · cases hs
          exact hi.phase t _ (hi.act t (by rw [hph]; simp)) (by simp) (by simp) (by rw [hph]; simp)
    · cases hs
  | exit t =>
    simp only [hpStep] at hs
    split at hs
    · rename_i p hph hp
      split at hs
      · cases hs
      · rename_i h hh
        cases hs
        refine hi.hists hh _ ?_ (fun u d ds hd => ?_) ?_ ?_
        rotate_left
        · by_cases e : u = t
          · simp [hpSetP, e] at hd
          · right; simpa [hpSetP, e] using hd
        rotate_right
        · intro u hu
          by_cases e : u = t
          · subst e; exact ⟨p, hp⟩
          · exact hi.act u (by simpa [hpSetP, e] using hu)
        · intro nd u hu
          have := nodup_port nd hp hu
          subst this
          simp [hpSetP]
        · intro nd u q hq hne
          have e : u ≠ t := fun e => hne (by subst e; rw [hp] at hq; exact (Option.some.inj hq).symm)
          simp [hpSetP, e]
    · cases hs

theorem hpStep_ports {s s' : HpSys} {e : HpEv} (hs : hpStep s e = .ok s') : s'.ports = s.ports := by
  cases e <;> simp only [hpStep] at hs <;> repeat' (split at hs)
  all_goals first | (cases hs; rfl) | cases hs

theorem hpRun_append {a b : List HpEv} : ∀ {s m : HpSys}, hpRun s a = .ok m → hpRun s (a ++ b) = hpRun m b := by
  induction a with
  | nil => intro s m h; cases h; rfl
  | cons e es ih =>
    intro s m h
    simp only [hpRun, List.cons_append] at h ⊢
    split at h
    · exact ih h
    · cases h
    · cases h

theorem HpInv.run {es : List HpEv} : ∀ {s s' : HpSys}, HpInv s → hpRun s es = .ok s' → HpInv s' ∧ s'.ports = s.ports := by
  induction es with
  | nil => intro s s' hi h; cases h; exact ⟨hi, rfl⟩
  | cons e es ih =>
    intro s s' hi h
    simp only [hpRun] at h
    split at h
    · rename_i m hm
      obtain ⟨h1, h2⟩ := ih (hi.step hm) h
      exact ⟨h1, h2.trans (hpStep_ports hm)⟩
    · cases h
    · cases h

/-- Threads of which each has still to wait for one of them. -/
def HpStuck (s : HpSys) (S : Nat → Prop) : Prop :=
  (∃ t, S t) ∧ ∀ t, S t → ∃ c ∈ (s.ph t).todo, ∃ u, S u ∧ s.ports[u]? = some c.port

theorem HpStuck.step {s s' : HpSys} {e : HpEv} {S : Nat → Prop} (nd : s.ports.Nodup) (hi : HpInv s) (hS : HpStuck s S)
    (hs : hpStep s e = .ok s') : HpStuck s' S := by
  have busy : ∀ u, S u → s.ph u ≠ .ended ∧ s.ph u ≠ .run := by
    intro u hu
    obtain ⟨c, hc, _⟩ := hS.2 u hu
    constructor <;> intro h <;> rw [h] at hc <;> cases hc
  have keep : ∀ (x : Nat → HpPh) (H : Int → Option Hist),
      (∀ t c u, S t → c ∈ (s.ph t).todo → S u → s.ports[u]? = some c.port → c ∈ (x t).todo) →
      HpStuck { s with hists := H, ph := x } S := by
    intro x H h
    refine ⟨hS.1, fun t ht => ?_⟩
    obtain ⟨c, hc, u, hu, hp⟩ := hS.2 t ht
    exact ⟨c, h t c u ht hc hu hp, u, hu, hp⟩
  cases e with
  | op t o =>
    simp only [hpStep] at hs
    repeat' (split at hs)
    all_goals first | (cases hs; exact keep _ _ (fun _ _ _ _ h _ _ => h)) | cases hs
  | err t cps =>
    simp only [hpStep] at hs
    split at hs
    · rename_i p hph hp
      cases hs
      refine keep _ _ (fun v c u hv hc _ _ => ?_)
      have : v ≠ t := fun e => (busy v hv).2 (e ▸ hph)
      simpa [hpSetP, this] using hc
    · cases hs
  | next t =>
    simp only [hpStep] at hs
    split at hs
    · rename_i hph
      cases hs
      refine keep _ _ (fun v c u hv hc _ _ => ?_)
      have : v ≠ t := fun e => by subst e; rw [hph] at hc; cases hc
      simpa [hpSetP, this] using hc
    · rename_i c0 cs hph
      split at hs
      · rename_i hno
        cases hs
        refine keep _ _ (fun v c u hv hc hu hp => ?_)
        by_cases e : v = t
        · subst e
          rw [hph] at hc
          rcases List.mem_cons.1 hc with rfl | hc
          · obtain ⟨h, hh⟩ := hi.has u _ hp
            rw [hno] at hh; cases hh
          · simpa [hpSetP, HpPh.todo] using hc
        · simpa [hpSetP, e] using hc
      · split at hs
        · cases hs
        · cases hs
          refine keep _ _ (fun v c u hv hc hu hp => ?_)
          by_cases e : v = t
          · subst e
            rw [hph] at hc
            simpa [hpSetP, HpPh.todo] using hc
          · simpa [hpSetP, e] using hc
    · cases hs
  | wake t =>
    simp only [hpStep] at hs
    split at hs
    · rename_i c0 cs hph
      split at hs
      · cases hs
      · rename_i h hh
        split at hs
        · cases hs
        · rename_i hnu
          cases hs
          refine keep _ _ (fun v c u hv hc hu hp => ?_)
          by_cases e : v = t
          · subst e
            rw [hph] at hc
            rcases List.mem_cons.1 hc with rfl | hc
            · exact absurd ((hi.use nd u _ h hp hh).2 (busy u hu).1) hnu
            · simpa [hpSetP, HpPh.todo] using hc
          · simpa [hpSetP, e] using hc
    · cases hs
  | exit t =>
    simp only [hpStep] at hs
    split at hs
    · rename_i p hph hp
      split at hs
      · cases hs
      · cases hs
        refine keep _ _ (fun v c u hv hc _ _ => ?_)
        have : v ≠ t := fun e => (busy v hv).2 (e ▸ hph)
        simpa [hpSetP, this] using hc
    · cases hs

theorem HpStuck.run {S : Nat → Prop} {es : List HpEv} : ∀ {s s' : HpSys}, s.ports.Nodup → HpInv s → HpStuck s S →
    hpRun s es = .ok s' → HpStuck s' S := by
  induction es with
  | nil => intro s s' _ _ hS h; cases h; exact hS
  | cons e es ih =>
    intro s s' nd hi hS h
    simp only [hpRun] at h
    split at h
    · rename_i m hm
      exact ih (by rw [hpStep_ports hm]; exact nd) (hi.step hm) (hS.step nd hi hm) h
    · cases h
    · cases h

/-- A thread whose outstanding checkpoints concern nobody who still runs can end without anybody's help. -/
theorem hp_drain : ∀ (n : Nat) (s : HpSys) (t : Nat), HpInv s → s.ports.Nodup → s.ph t ≠ .ended → (∃ p, s.ports[t]? = some p) →
    2 * (s.ph t).todo.length + (match s.ph t with | .proc _ => 2 | .wait _ _ => 1 | _ => 0) ≤ n →
    (∀ c ∈ (s.ph t).todo, CpNonneg c) →
    (∀ c ∈ (s.ph t).todo, ∀ u, s.ports[u]? = some c.port → s.ph u = .ended) →
    ∃ es s', hpRun s es = .ok s' ∧ s'.ph = hpSetP s.ph t .ended := by
  intro n
  induction n with
  | zero =>
    intro s t hi nd hne hp hm hn hf
    obtain ⟨p, hp⟩ := hp
    cases hph : s.ph t with
    | run =>
      obtain ⟨h, hh⟩ := hi.has t p hp
      exact ⟨[.exit t], { s with hists := hpSetH s.hists p { h with inUse := false }, ph := hpSetP s.ph t .ended },
        by simp [hpRun, hpStep, hph, hp, hh], rfl⟩
    | ended => exact absurd hph hne
    | proc cs => rw [hph] at hm; simp at hm
    | wait c cs => rw [hph] at hm; simp at hm
  | succ n ih =>
    intro s t hi nd hne hp hm hn hf
    have go : ∀ (e : HpEv) (m : HpSys) (x : HpPh), hpStep s e = .ok m → m.ph = hpSetP s.ph t x → x ≠ .ended →
        2 * x.todo.length + (match x with | .proc _ => 2 | .wait _ _ => 1 | _ => 0) ≤ n →
        (∀ c ∈ x.todo, c ∈ (s.ph t).todo) →
        ∃ es s', hpRun s es = .ok s' ∧ s'.ph = hpSetP s.ph t .ended := by
      intro e m x hs hm' hx hlen hsub
      have hmt : m.ph t = x := by rw [hm']; simp [hpSetP]
      obtain ⟨es, s', h1, h2⟩ := ih m t (hi.step hs) (by rw [hpStep_ports hs]; exact nd) (by rw [hmt]; exact hx)
        (by rw [hpStep_ports hs]; exact hp) (by rw [hmt]; exact hlen)
        (by rw [hmt]; exact fun c hc => hn c (hsub c hc))
        (by
          rw [hmt, hpStep_ports hs]
          intro c hc u hu
          have := hf c (hsub c hc) u hu
          have hut : u ≠ t := fun e => hne (e ▸ this)
          rw [hm']; simp [hpSetP, hut, this])
      refine ⟨e :: es, s', by simp [hpRun, hs, h1], ?_⟩
      rw [h2, hm']
      funext v
      by_cases e : v = t <;> simp [hpSetP, e]
    cases hph : s.ph t with
    | run =>
      obtain ⟨p, hp⟩ := hp
      obtain ⟨h, hh⟩ := hi.has t p hp
      exact ⟨[.exit t], { s with hists := hpSetH s.hists p { h with inUse := false }, ph := hpSetP s.ph t .ended },
        by simp [hpRun, hpStep, hph, hp, hh], rfl⟩
    | ended => exact absurd hph hne
    | proc cs =>
      rw [hph] at hm
      cases cs with
      | nil =>
        refine go (.next t) { s with ph := hpSetP s.ph t .run } .run (by simp [hpStep, hph]) rfl (by simp) ?_ ?_
        · simp [HpPh.todo]
        · simp [HpPh.todo]
      | cons c cs =>
        simp only [HpPh.todo, List.length_cons] at hm
        cases hh : s.hists c.port with
        | none =>
          refine go (.next t) { s with ph := hpSetP s.ph t (.proc cs) } (.proc cs) (by simp [hpStep, hph, hh]) rfl (by simp) ?_ ?_
          · simp only [HpPh.todo]; omega
          · simp only [HpPh.todo, hph]; exact fun d hd => List.mem_cons_of_mem _ hd
        | some h =>
          obtain ⟨⟨k, h', l⟩, hc⟩ := setCheckpoint_total (h := h) (g := true) (hn c (by rw [hph]; simp [HpPh.todo]))
          refine go (.next t) { s with hists := hpSetH s.hists c.port h', ph := hpSetP s.ph t (.wait c cs) } (.wait c cs)
            (by simp [hpStep, hph, hh, hc]) rfl (by simp) ?_ ?_
          · simp only [HpPh.todo, List.length_cons]; omega
          · simp only [HpPh.todo, hph]; exact fun d hd => hd
    | wait c cs =>
      rw [hph] at hm
      simp only [HpPh.todo, List.length_cons] at hm
      have hc : c ∈ (s.ph t).todo := by rw [hph]; simp [HpPh.todo]
      cases hh : s.hists c.port with
      | none =>
        obtain ⟨h, hh'⟩ := hi.wt t c cs hph
        rw [hh] at hh'; cases hh'
      | some h =>
        obtain ⟨u, hu⟩ := List.mem_iff_getElem?.1 (hi.own _ _ hh)
        have hend := hf c hc u hu
        have hnu : h.inUse = false := by
          cases hb : h.inUse with
          | false => rfl
          | true => exact absurd hend ((hi.use nd u _ h hu hh).1 hb)
        refine go (.wake t) { s with ph := hpSetP s.ph t (.proc cs) } (.proc cs) (by simp [hpStep, hph, hh, hnu]) rfl (by simp) ?_ ?_
        · simp only [HpPh.todo]; omega
        · simp only [HpPh.todo, hph]; exact fun d hd => List.mem_cons_of_mem _ hd

end Wdt
