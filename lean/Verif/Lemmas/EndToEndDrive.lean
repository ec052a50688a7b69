import Verif.Lemmas.EndToEndLead
/-
How a transfer can be completed over one port: the other receiver threads end and the port is
connected again.
-/
namespace Wdt
variable {c : ECfg} {mb : Int} {del : Bool}

/-- Receiver thread `u` moves. -/
def ESys.goR (S : ESys) (u : Nat) (p : Port) (r : RThr) : ESys :=
  { S with port := upd S.port u p, rcv := { S.rcv with th := upd S.rcv.th u r } }

/-- What steps of receiver thread `u` leave alone. -/
structure RGoes (u : Nat) (S S' : ESys) : Prop where
  snd : S'.snd = S.snd
  port : ∀ v, v ≠ u → S'.port v = S.port v
  sph : (S'.port u).sph = (S.port u).sph
  th : ∀ v, v ≠ u → S'.rcv.th v = S.rcv.th v

theorem RGoes.refl (u : Nat) (S : ESys) : RGoes u S S := ⟨rfl, fun _ _ => rfl, rfl, fun _ _ => rfl⟩

theorem RGoes.trans {u : Nat} {S S' S'' : ESys} (h : RGoes u S S') (h' : RGoes u S' S'') : RGoes u S S'' :=
  ⟨h'.snd.trans h.snd, fun v hv => (h'.port v hv).trans (h.port v hv), h'.sph.trans h.sph,
    fun v hv => (h'.th v hv).trans (h.th v hv)⟩

theorem RGoes.goR {u : Nat} {S : ESys} {p : Port} {r : RThr} (h : p.sph = (S.port u).sph) : RGoes u S (S.goR u p r) :=
  ⟨rfl, fun v hv => by simp [ESys.goR, upd_apply, hv], by simp [ESys.goR, upd_self, h],
    fun v hv => by simp [ESys.goR, upd_apply, hv]⟩

theorem EFine.rgood {S : ESys} (hf : EFine c mb del S) : RGood c.n S.rcv := by
  obtain ⟨es, h⟩ := hf.good.p.rr
  exact RGood.run h

theorem EFine.unlocked {S : ESys} (hf : EFine c mb del S) (hl : S.rcv.lock = none) (u : Nat) :
    (S.rcv.th u).phase.locked = false := by
  cases h : (S.rcv.th u).phase.locked with
  | false => rfl
  | true => rw [(hf.rgood.lock u).1 h] at hl; cases hl

/-- The mutex can be released. -/
theorem can_unlock {S : ESys} (hf : EFine c mb del S) : Can c S fun S' => S'.rcv.lock = none ∧ S'.snd = S.snd ∧
    S'.port = S.port ∧ ∀ v, (S.rcv.th v).phase ≠ .failing → (S.rcv.th v).phase ≠ .ended →
      (S'.rcv.th v).phase ≠ .failing ∧ (S'.rcv.th v).phase ≠ .ended := by
  cases hl : S.rcv.lock with
  | none => exact .here hf ⟨hl, rfl, rfl, fun v h1 h2 => ⟨h1, h2⟩⟩
  | some u =>
    have hu := hf.rgood.inside u hl
    have hlk := (hf.rgood.lock u).2 hl
    have fin : ∀ S1 : ESys, EFine c mb del S1 → (S1.rcv.th u).phase = .decided → Can c S1 fun S' => S'.rcv.lock = none ∧ S'.snd = S1.snd ∧
        S'.port = S1.port ∧ ∀ v, (S1.rcv.th v).phase ≠ .failing → (S1.rcv.th v).phase ≠ .ended →
          (S'.rcv.th v).phase ≠ .failing ∧ (S'.rcv.th v).phase ≠ .ended := by
      intro S1 hf1 hp
      have hs : eStep c S1 (.v (.finish u)) = some { S1 with rcv := { S1.rcv with
          th := upd S1.rcv.th u { S1.rcv.th u with mark := .finished, phase := .sendDone }, lock := none } } := by
        simp [eStep, eStepR, ESys.rcv?, rStep, hu, hp]
      refine .one hf1 _ hs rfl rfl rfl ⟨rfl, rfl, rfl, fun v h1 h2 => ?_⟩
      simp only [upd_apply]; split
      · simp
      · exact ⟨h1, h2⟩
    cases hp : (S.rcv.th u).phase with
    | found =>
      have hs : eStep c S (.v (.resume u)) = some { S with rcv := { S.rcv with
          th := upd S.rcv.th u { S.rcv.th u with mark := .running, phase := .sendGlobal }, lock := none } } := by
        simp [eStep, eStepR, ESys.rcv?, rStep, hu, hp]
      refine .one hf _ hs rfl rfl rfl ⟨rfl, rfl, rfl, fun v h1 h2 => ?_⟩
      simp only [upd_apply]; split
      · simp
      · exact ⟨h1, h2⟩
    | decided => exact fin S hf hp
    | nothing =>
      by_cases hany : (List.range c.n).any (fun v => v != u && (S.rcv.th v).mark == .running) = true
      · have hs : eStep c S (.v (.query u)) = some { S with rcv := { S.rcv with
            th := upd S.rcv.th u { S.rcv.th u with phase := .waiting }, lock := none } } := by
          simp only [eStep, eStepR, ESys.rcv?, rStep]
          rw [if_pos ⟨hu, hp⟩, if_pos hany]
          simp [upd_self]
        refine .one hf _ hs rfl rfl rfl ⟨rfl, rfl, rfl, fun v h1 h2 => ?_⟩
        simp only [upd_apply]; split
        · simp
        · exact ⟨h1, h2⟩
      · have hs : eStep c S (.v (.query u)) = some { S with rcv := { S.rcv with
            th := upd S.rcv.th u { S.rcv.th u with phase := .decided } }, dec := true } := by
          simp only [eStep, eStepR, ESys.rcv?, rStep]
          rw [if_pos ⟨hu, hp⟩, if_neg hany]
          simp [upd_self]
        refine .cons hf _ hs rfl rfl rfl fun hf1 => (fin _ hf1 (by simp [upd_self])).mono fun S' h => ?_
        refine ⟨h.1, h.2.1, h.2.2.1, fun v h1 h2 => h.2.2.2 v ?_ ?_⟩
        all_goals
          simp only [upd_apply]; split
          · simp
          · assumption
    | _ => rw [hp] at hlk; cases hlk

/-- A receiver thread can go back to waiting for a connection. -/
theorem can_accepting {S : ESys} {u : Nat} (hf : EFine c mb del S) (hu : u < c.n) (hl : S.rcv.lock = none)
    (h1 : (S.rcv.th u).phase ≠ .failing) (h2 : (S.rcv.th u).phase ≠ .ended)
    (ha : (S.rcv.th u).phase = .reading → (S.port u).acc = true) :
    Can c S fun S' => RGoes u S S' ∧ (S'.rcv.th u).phase = .accepting ∧ S'.rcv.lock = none := by
  have nl := hf.unlocked hl u
  have wait : ∀ S1 : ESys, EFine c mb del S1 → S1.rcv.lock = none → (S1.rcv.th u).phase = .waiting →
      Can c S1 fun S' => RGoes u S1 S' ∧ (S'.rcv.th u).phase = .accepting ∧ S'.rcv.lock = none := by
    intro S1 hf1 hl1 hp
    have hs : eStep c S1 (.v (.sendWait u false)) = some (S1.goR u ((S1.port u).drop (S1.port u).last)
        { S1.rcv.th u with mark := .running, phase := .accepting }) := by
      simp [eStep, eStepR, ESys.rcv?, rStep, ESys.setP, ESys.goR, hu, hp]
    exact .one hf1 _ hs rfl rfl rfl ⟨.goR rfl, by simp [ESys.goR, upd_self], hl1⟩
  cases hp : (S.rcv.th u).phase with
  | reading =>
    have hs : eStep c S (.v (.lost u false false)) = some (S.goR u ((S.port u).drop (S.port u).last)
        { S.rcv.th u with phase := .accepting }) := by
      simp [eStep, eStepR, ESys.rcv?, rStep, ESys.setP, ESys.goR, hu, hp, ha hp]
    exact .one hf _ hs rfl rfl rfl ⟨.goR rfl, by simp [ESys.goR, upd_self], hl⟩
  | toWait =>
    have hs : eStep c S (.v (.markWaiting u)) = some (S.goR u (S.port u)
        { S.rcv.th u with mark := .waiting, phase := .waiting }) := by
      simp [eStep, eStepR, ESys.rcv?, rStep, ESys.goR, hu, hp]
      funext v; simp only [upd_apply]; split <;> simp_all
    exact .cons hf _ hs rfl rfl rfl fun hf1 => (wait _ hf1 hl (by simp [ESys.goR, upd_self])).mono fun S' h =>
      ⟨(RGoes.goR rfl).trans h.1, h.2⟩
  | waiting => exact wait S hf hl hp
  | sendGlobal =>
    have hs : eStep c S (.v (.sendGlobal u false)) = some (S.goR u ((S.port u).drop (S.port u).last)
        { S.rcv.th u with phase := .accepting }) := by
      simp [eStep, eStepR, ESys.rcv?, rStep, ESys.setP, ESys.goR, hu, hp]
    exact .one hf _ hs rfl rfl rfl ⟨.goR rfl, by simp [ESys.goR, upd_self], hl⟩
  | sendDone =>
    have hs : eStep c S (.v (.doneSent u false)) = some (S.goR u ((S.port u).drop (S.port u).last)
        { S.rcv.th u with phase := .accepting }) := by
      simp [eStep, eStepR, ESys.rcv?, rStep, ESys.setP, ESys.goR, hu, hp]
    exact .one hf _ hs rfl rfl rfl ⟨.goR rfl, by simp [ESys.goR, upd_self], hl⟩
  | accepting => exact .here hf ⟨.refl u S, hp, hl⟩
  | failing => exact absurd hp h1
  | ended => exact absurd hp h2
  | _ => rw [hp] at nl; cases nl

/-- A receiver thread can end. -/
theorem can_endR {S : ESys} {u : Nat} (hf : EFine c mb del S) (hu : u < c.n) (hl : S.rcv.lock = none) :
    Can c S fun S' => RGoes u S S' ∧ (S'.rcv.th u).phase = .ended ∧ S'.rcv.lock = none := by
  have fail : ∀ S1 : ESys, EFine c mb del S1 → S1.rcv.lock = none → (S1.rcv.th u).phase = .failing →
      Can c S1 fun S' => RGoes u S1 S' ∧ (S'.rcv.th u).phase = .ended ∧ S'.rcv.lock = none := by
    intro S1 hf1 hl1 hp
    have hs : eStep c S1 (.v (.failed u)) = some { S1 with cpv := upd S1.cpv u (S1.port u).cp, rcv := { S1.rcv with
        th := upd S1.rcv.th u { S1.rcv.th u with mark := .finished, phase := .ended }, cps := S1.rcv.cps ++ [u] } } := by
      simp [eStep, eStepR, ESys.rcv?, rStep, hu, hp, hl1]
    refine .one hf1 _ hs rfl rfl rfl ⟨⟨rfl, fun _ _ => rfl, rfl, fun v hv => ?_⟩, by simp [upd_self], hl1⟩
    simp [upd_apply, hv]
  have acc : ∀ S1 : ESys, EFine c mb del S1 → S1.rcv.lock = none → (S1.rcv.th u).phase = .accepting →
      Can c S1 fun S' => RGoes u S1 S' ∧ (S'.rcv.th u).phase = .ended ∧ S'.rcv.lock = none := by
    intro S1 hf1 hl1 hp
    have hs : eStep c S1 (.v (.accept u false)) = some (S1.goR u ((S1.port u).shut (S1.port u).last)
        { S1.rcv.th u with phase := .failing }) := by
      simp [eStep, eStepR, ESys.rcv?, rStep, ESys.setP, ESys.goR, hu, hp]
    exact .cons hf1 _ hs rfl rfl rfl fun hf2 => (fail _ hf2 hl1 (by simp [ESys.goR, upd_self])).mono fun S' h =>
      ⟨(RGoes.goR (p := (S1.port u).shut (S1.port u).last) rfl).trans h.1, h.2⟩
  by_cases h1 : (S.rcv.th u).phase = .failing
  · exact fail S hf hl h1
  by_cases h2 : (S.rcv.th u).phase = .ended
  · exact .here hf ⟨.refl u S, h2, hl⟩
  by_cases h3 : (S.rcv.th u).phase = .reading
  · have hs : eStep c S (.v (.lost u false true)) = some (S.goR u ((S.port u).shut (S.port u).last)
        { S.rcv.th u with phase := .failing }) := by
      simp [eStep, eStepR, ESys.rcv?, rStep, ESys.setP, ESys.goR, hu, h3]
    exact .cons hf _ hs rfl rfl rfl fun hf1 => (fail _ hf1 hl (by simp [ESys.goR, upd_self])).mono fun S' h =>
      ⟨(RGoes.goR (p := (S.port u).shut (S.port u).last) rfl).trans h.1, h.2⟩
  · exact (can_accepting hf hu hl h1 h2 fun h => absurd h h3).trans hf fun S1 hf1 h =>
      (acc S1 hf1 h.2.2 h.2.1).mono fun S' h' => ⟨h.1.trans h'.1, h'.2⟩

/-- Only port `t` is left. -/
structure Solo (c : ECfg) (t : Nat) (S : ESys) : Prop where
  lt : t < c.n
  snd : ∀ ok, (S.port t).sph ≠ .ended ok
  rcv1 : (S.rcv.th t).phase ≠ .failing
  rcv2 : (S.rcv.th t).phase ≠ .ended
  free : ∀ u, u ≠ t → Free S u
  use : ∀ u, u < c.n → u ≠ t → (S.hist u).inUse = false
  rend : ∀ u, u < c.n → u ≠ t → (S.rcv.th u).phase = .ended

theorem Solo.alive {S : ESys} {t : Nat} (h : Solo c t S) : EAlive c t S := ⟨h.lt, h.snd, h.rcv1, h.rcv2⟩

theorem can_solo {S : ESys} {t : Nat} (hf : EFine c mb del S) (ha : EAlive c t S) :
    Can c S fun S' => Solo c t S' ∧ Free S' t ∧ S'.rcv.lock = none := by
  refine (can_putDownAll hf ha).trans hf fun S1 hf1 h1 => ?_
  refine (can_endOthers hf1 h1.1 h1.2).trans hf1 fun S2 hf2 h2 => ?_
  refine (can_unlock hf2).trans hf2 fun S3 hf3 h3 => ?_
  have key : ∀ k, k ≤ c.n → Can c S3 fun S' => S'.snd = S3.snd ∧ S'.rcv.lock = none ∧ S'.rcv.th t = S3.rcv.th t ∧
      S'.port t = S3.port t ∧ ∀ u, u < k → u ≠ t → (S'.rcv.th u).phase = .ended := by
    intro k
    induction k with
    | zero => intro _; exact .here hf3 ⟨rfl, h3.1, rfl, rfl, by simp⟩
    | succ k ih =>
      intro hk
      refine (ih (by omega)).trans hf3 fun S4 hf4 h4 => ?_
      obtain ⟨a1, a2, a3, a4, a5⟩ := h4
      by_cases htk : k = t
      · exact .here hf4 ⟨a1, a2, a3, a4, fun u hu hut => a5 u (by omega) hut⟩
      · refine (can_endR hf4 (u := k) (by omega) a2).mono fun S5 h5 => ?_
        obtain ⟨m, b1, b2⟩ := h5
        refine ⟨m.snd.trans a1, b2, (m.th t (Ne.symm htk)).trans a3, (m.port t (Ne.symm htk)).trans a4, fun u hu hut => ?_⟩
        by_cases huk : u = k
        · subst huk; exact b1
        · rw [m.th u huk]; exact a5 u (by omega) hut
  refine (key c.n (Nat.le_refl _)).mono fun S4 h4 => ?_
  obtain ⟨a1, a2, a3, a4, a5⟩ := h4
  obtain ⟨l1, l2, l3, l4⟩ := h3
  obtain ⟨hA, hB⟩ := h2
  obtain ⟨r1, r2⟩ := l4 t hA.rcv1 hA.rcv2
  have fr : ∀ u, Free S4 u := fun u => by
    have := hB.free u
    unfold Free at this ⊢
    rw [a1, l2]; exact this
  refine ⟨⟨hA.lt, by rw [a4, l3]; exact hA.snd, by rw [a3]; exact r1, by rw [a3]; exact r2, fun u _ => fr u,
    fun u hu hut => ?_, a5⟩, fr t, a2⟩
  have := hB.use u hu hut
  unfold ESys.hist at this ⊢
  rw [a1, l2]; exact this

/-! ### Steps that keep to port `t` -/

theorem Solo.act {S S' : ESys} {t : Nat} (h : Solo c t S) (hr : S'.rcv = S.rcv) (hp : ∀ ok, (S'.port t).sph ≠ .ended ok)
    (ht : ∀ v, v ≠ t → S'.snd.thr v = S.snd.thr v) : Solo c t S' := by
  refine ⟨h.lt, hp, by rw [hr]; exact h.rcv1, by rw [hr]; exact h.rcv2, fun u hu => ?_, fun u hu hut => ?_,
    by rw [hr]; exact h.rend⟩
  · have := h.free u hu
    unfold Free at this ⊢
    rw [ht u hu]; exact this
  · have := h.use u hu hut
    rw [hist_eq] at this ⊢
    rw [ht u hut]; exact this

theorem Solo.actR {S S' : ESys} {t : Nat} (h : Solo c t S) (hs : S'.snd = S.snd) (hp : ∀ ok, (S'.port t).sph ≠ .ended ok)
    (h1 : (S'.rcv.th t).phase ≠ .failing) (h2 : (S'.rcv.th t).phase ≠ .ended)
    (ht : ∀ v, v ≠ t → S'.rcv.th v = S.rcv.th v) : Solo c t S' := by
  refine ⟨h.lt, hp, h1, h2, fun u hu => ?_, fun u hu hut => ?_, fun u hu hut => by rw [ht u hut]; exact h.rend u hu hut⟩
  · have := h.free u hu
    unfold Free at this ⊢
    rw [hs]; exact this
  · have := h.use u hu hut
    unfold ESys.hist at this ⊢
    rw [hs]; exact this

theorem Solo.setP {S : ESys} {t : Nat} {p : Port} (h : Solo c t S) (hp : ∀ ok, p.sph ≠ .ended ok) : Solo c t (S.setP t p) :=
  h.act rfl (by simpa [ESys.setP, upd_self] using hp) fun _ _ => rfl

theorem Solo.goR {S : ESys} {t : Nat} {p : Port} {r : RThr} (h : Solo c t S) (hp : ∀ ok, p.sph ≠ .ended ok)
    (h1 : r.phase ≠ .failing) (h2 : r.phase ≠ .ended) : Solo c t (S.goR t p r) :=
  h.actR rfl (by simpa [ESys.goR, upd_self] using hp) (by simpa [ESys.goR, upd_self] using h1)
    (by simpa [ESys.goR, upd_self] using h2) fun v hv => by simp [ESys.goR, upd_apply, hv]

theorem Solo.unlocked {S : ESys} {t : Nat} (h : Solo c t S) (hf : EFine c mb del S) (hl : (S.rcv.th t).phase.locked = false) :
    S.rcv.lock = none := by
  cases hk : S.rcv.lock with
  | none => rfl
  | some u =>
    have h1 := (hf.rgood.lock u).2 hk
    by_cases hut : u = t
    · subst hut; rw [hl] at h1; cases h1
    · rw [h.rend u (hf.rgood.inside u hk) hut] at h1; cases h1

/-- The checkpoints in an ERR command can be worked off. -/
theorem can_list {t : Nat} : ∀ (l : List (Nat × Checkpoint)) (w : Bool) (S : ESys), EFine c mb del S → Solo c t S → Free S t →
    (S.port t).sph = .processing l w →
    Can c S fun S' => Solo c t S' ∧ Free S' t ∧ S'.rcv = S.rcv ∧ S'.port t = { S.port t with sph := .sending } ∧
      S'.snd.thr t = S.snd.thr t ∧ S'.snd.q.initFinished = S.snd.q.initFinished := by
  have go : ∀ (l : List (Nat × Checkpoint)) (S : ESys), EFine c mb del S → Solo c t S → Free S t →
    (S.port t).sph = .processing l false →
    Can c S fun S' => Solo c t S' ∧ Free S' t ∧ S'.rcv = S.rcv ∧ S'.port t = { S.port t with sph := .sending } ∧
      S'.snd.thr t = S.snd.thr t ∧ S'.snd.q.initFinished = S.snd.q.initFinished := by
    intro l
    induction l with
    | nil =>
      intro S hf hs hfr hp
      have he : eStep c S (.s (.errDone t)) = some (S.setP t { S.port t with sph := .sending }) := by
        simp [eStep, eStepS, hp]
      exact .one hf _ he rfl rfl rfl ⟨hs.setP (by simp), hfr, rfl, by simp [ESys.setP, upd_self], rfl, rfl⟩
    | cons x l ih =>
      obtain ⟨u, cp⟩ := x
      intro S hf hs hfr hp
      obtain ⟨k1, k2⟩ := (hf.good.p.thr t).pr1 _ _ hp (u, cp) (by simp)
      have k1 : u ∈ S.rcv.cps := k1
      have k2 : cp = S.cpv u := k2
      have hun : u < c.n := hf.good.p.rlt u k1
      have hul : u < S.snd.threads.length := by rw [hf.len]; exact hun
      have hut : u ≠ t := by rintro rfl; exact hs.alive.notCp hf k1
      have hgood : GoodCp S.landed cp := by rw [k2]; exact hf.good.p.cpg u k1
      obtain ⟨s', hs'⟩ := applyCp_noFault (g := true) hf.good.pot (some_of_lt hul) hgood.nonneg
      have h1 : sStep S.snd (.globalCp u cp) = .ok s' := by simp only [sStep, some_of_lt hul]; exact hs'
      obtain ⟨H', lb, h2, -, h3, -⟩ := applyCp_shape hs'
      have hthr : s'.thr = upd S.snd.thr u { S.snd.thr u with hist := H' } := thr_set (some_of_lt hul) (by rw [h2]; rfl)
      have hrf : refusedCp (S.hist u) cp true = false := by rw [k2]; exact not_refused hf k1 (hs.free u hut)
      have he : eStep c S (.s (.global t)) = some { S.setP t { S.port t with sph := .processing ((u, cp) :: l) true } with
          snd := s' } := by
        simp [eStep, eStepS, hp, ESys.snd?, ESys.setP, h1, hrf]
      have hthrt : s'.thr t = S.snd.thr t := by rw [hthr, upd_apply, if_neg (Ne.symm hut)]
      have hfree : ∀ v, v ≠ t → (s'.thr v).opening = none ∧ (s'.thr v).cur = none := by
        intro v hv
        have := hs.free v hv
        unfold Free at this
        rw [hthr, upd_apply]
        split
        · rename_i e; subst e; exact this
        · exact this
      have huse : ∀ v, v < c.n → v ≠ t → (s'.thr v).hist.inUse = false := by
        intro v hv hvt
        have := hs.use v hv hvt
        rw [hist_eq] at this
        rw [hthr, upd_apply]
        split
        · rename_i e; subst e; rw [show ({ S.snd.thr v with hist := H' } : SThread).hist.inUse = H'.inUse from rfl, h3]; exact this
        · exact this
      refine .cons hf _ he rfl rfl (by show s'.q.failed = _; rw [h2]; rfl) fun hf1 => ?_
      have hs1 : Solo c t { S.setP t { S.port t with sph := .processing ((u, cp) :: l) true } with snd := s' } :=
        ⟨hs.lt, by simp [ESys.setP, upd_self], hs.rcv1, hs.rcv2, hfree, fun v hv hvt => by rw [hist_eq]; exact huse v hv hvt, hs.rend⟩
      have he1 : eStep c { S.setP t { S.port t with sph := .processing ((u, cp) :: l) true } with snd := s' } (.s (.globalGo t)) =
          some (ESys.setP { S.setP t { S.port t with sph := .processing ((u, cp) :: l) true } with snd := s' } t
            { S.port t with sph := .processing l false }) := by
        have := hs1.use u hun hut
        simp only [eStep, eStepS, ESys.setP, upd_self] at this ⊢
        rw [this]; simp
      refine .cons hf1 _ he1 rfl rfl rfl fun hf2 => ?_
      have hfr' : (s'.thr t).opening = none ∧ (s'.thr t).cur = none := by rw [hthrt]; exact hfr
      refine (ih _ hf2 (hs1.setP (by simp)) hfr' (by simp [ESys.setP, upd_self])).mono fun S' h => ?_
      refine ⟨h.1, h.2.1, h.2.2.1, ?_, ?_, ?_⟩
      · rw [h.2.2.2.1]; simp [ESys.setP, upd_self]
      · rw [h.2.2.2.2.1]; exact hthrt
      · rw [h.2.2.2.2.2]; show s'.q.initFinished = _; rw [h2]; rfl
  intro l w S hf hs hfr hp
  cases w with
  | false => exact go l S hf hs hfr hp
  | true =>
    cases l with
    | nil => exact absurd hp (hf.good.n t)
    | cons x l =>
      obtain ⟨u, cp⟩ := x
      obtain ⟨k1, k2⟩ := (hf.good.p.thr t).pr1 _ _ hp (u, cp) (by simp)
      have k1 : u ∈ S.rcv.cps := k1
      have hun : u < c.n := hf.good.p.rlt u k1
      have hut : u ≠ t := by rintro rfl; exact hs.alive.notCp hf k1
      have he : eStep c S (.s (.globalGo t)) = some (S.setP t { S.port t with sph := .processing l false }) := by
        simp [eStep, eStepS, hp, hs.use u hun hut]
      refine .cons hf _ he rfl rfl rfl fun hf1 => ?_
      refine (go l _ hf1 (hs.setP (by simp)) hfr (by simp [ESys.setP, upd_self])).mono fun S' h => ?_
      refine ⟨h.1, h.2.1, h.2.2.1, ?_, h.2.2.2.2⟩
      rw [h.2.2.2.1]; simp [ESys.setP, upd_self]

end Wdt
