import Verif.Lemmas.EndToEndZero
import Verif.Props.ReceiverEnds
/-
How a transfer can be completed over one port.
-/
namespace Wdt

/-- A state in which nothing has gone wrong for good. -/
structure EFine (c : ECfg) (mb : Int) (del : Bool) (S : ESys) : Prop where
  cfg : (c.tagged || c.footer) = true
  good : Good c mb del S
  zero : ZInv S
  ref : S.refused = false
  sil : S.silent = false

/-- There are steps that lead to `Q`, without a refused checkpoint, a silent end or a file that
cannot be opened. -/
def Can (c : ECfg) (S : ESys) (Q : ESys → Prop) : Prop :=
  ∃ es S', eRun c S es = some S' ∧ S'.refused = false ∧ S'.silent = false ∧ S'.snd.q.failed = S.snd.q.failed ∧ Q S'

variable {c : ECfg} {mb : Int} {del : Bool}

theorem EFine.run {S S' : ESys} {es : List EEvent} (h : EFine c mb del S) (hr : eRun c S es = some S')
    (h1 : S'.refused = false) (h2 : S'.silent = false) : EFine c mb del S' :=
  ⟨h.cfg, h.good.run hr, h.zero.run h.cfg h.good hr, h1, h2⟩

theorem Can.here {S : ESys} {Q : ESys → Prop} (h : EFine c mb del S) (hQ : Q S) : Can c S Q :=
  ⟨[], S, rfl, h.ref, h.sil, rfl, hQ⟩

theorem Can.trans {S : ESys} {Q R : ESys → Prop} (h : Can c S Q) (hf : EFine c mb del S)
    (h' : ∀ S', EFine c mb del S' → Q S' → Can c S' R) : Can c S R := by
  obtain ⟨es, S', h1, h2, h3, h4, h5⟩ := h
  obtain ⟨es', S'', g1, g2, g3, g4, g5⟩ := h' S' (hf.run h1 h2 h3) h5
  exact ⟨es ++ es', S'', eRun_append h1 g1, g2, g3, g4.trans h4, g5⟩

theorem Can.mono {S : ESys} {Q R : ESys → Prop} (h : Can c S Q) (hQR : ∀ S', Q S' → R S') : Can c S R := by
  obtain ⟨es, S', h1, h2, h3, h4, h5⟩ := h
  exact ⟨es, S', h1, h2, h3, h4, hQR _ h5⟩

theorem Can.imp {S : ESys} {Q R : ESys → Prop} (h : Can c S Q) (hf : EFine c mb del S)
    (h' : ∀ S', EFine c mb del S' → Q S' → R S') : Can c S R :=
  h.trans hf fun S' hf' hQ => .here hf' (h' S' hf' hQ)

theorem Can.cons {S S' : ESys} {Q : ESys → Prop} (hf : EFine c mb del S) (e : EEvent) (hs : eStep c S e = some S')
    (h1 : S'.refused = S.refused) (h2 : S'.silent = S.silent) (h3 : S'.snd.q.failed = S.snd.q.failed)
    (h : EFine c mb del S' → Can c S' Q) : Can c S Q := by
  have hr : eRun c S [e] = some S' := by simp [eRun, hs]
  have hf' := hf.run hr (h1.trans hf.ref) (h2.trans hf.sil)
  obtain ⟨es', S'', g1, g2, g3, g4, g5⟩ := h hf'
  exact ⟨[e] ++ es', S'', eRun_append hr g1, g2, g3, g4.trans h3, g5⟩

theorem Can.one {S S' : ESys} {Q : ESys → Prop} (hf : EFine c mb del S) (e : EEvent) (hs : eStep c S e = some S')
    (h1 : S'.refused = S.refused) (h2 : S'.silent = S.silent) (h3 : S'.snd.q.failed = S.snd.q.failed) (h : Q S') : Can c S Q :=
  .cons hf e hs h1 h2 h3 fun hf' => .here hf' h

/-- Thread `u` of the sender has no block in its hands. -/
def Free (S : ESys) (u : Nat) : Prop := (S.snd.thr u).opening = none ∧ (S.snd.thr u).cur = none

theorem Free.get {S : ESys} {u : Nat} (h : Free S u) (hu : u < S.snd.threads.length) :
    S.snd.threads[u]? = some ⟨(S.snd.thr u).hist, none, none⟩ := by
  rw [some_of_lt hu]
  obtain ⟨h1, h2⟩ := h
  cases hth : S.snd.thr u
  simp_all

theorem EFine.len {S : ESys} (h : EFine c mb del S) : S.snd.threads.length = c.n := h.good.p.len

/-- Both threads of port `t` are alive. -/
structure EAlive (c : ECfg) (t : Nat) (S : ESys) : Prop where
  lt : t < c.n
  snd : ∀ ok, (S.port t).sph ≠ .ended ok
  rcv1 : (S.rcv.th t).phase ≠ .failing
  rcv2 : (S.rcv.th t).phase ≠ .ended

theorem EAlive.notCp {S : ESys} {t : Nat} (h : EAlive c t S) (hf : EFine c mb del S) : t ∉ S.rcv.cps :=
  fun hm => h.rcv2 ((hf.good.p.loc t).failed hm).1

theorem EAlive.glob {S : ESys} {t : Nat} (h : EAlive c t S) (hf : EFine c mb del S) : (S.snd.thr t).hist.globalCp = false := by
  cases hg : (S.snd.thr t).hist.globalCp with
  | false => rfl
  | true => exact absurd ((hf.good.p.loc t).glob hg).1 (h.notCp hf)

theorem EAlive.use {S : ESys} {t : Nat} (h : EAlive c t S) (hf : EFine c mb del S) : (S.snd.thr t).hist.inUse = true := by
  cases hg : (S.snd.thr t).hist.inUse with
  | true => rfl
  | false =>
    obtain ⟨ok, h1⟩ := (hf.good.p.loc t).use hg
    exact absurd h1 (h.snd ok)

/-! ### Blocks in hand are put down -/

/-- What a thread that puts its block down leaves alone. -/
structure PutDown (u : Nat) (S S' : ESys) : Prop where
  rcv : S'.rcv = S.rcv
  port : ∀ v, v ≠ u → S'.port v = S.port v
  thr : ∀ v, v ≠ u → S'.snd.thr v = S.snd.thr v
  own : (S'.port u).sph = (S.port u).sph ∨ (S'.port u).sph = .lost ∨ (S.snd.thr u).hist.globalCp = true
  free : Free S' u

theorem can_putDown {S : ESys} {u : Nat} (hf : EFine c mb del S) (hu : u < c.n) : Can c S (PutDown u S) := by
  have hl : u < S.snd.threads.length := by rw [hf.len]; exact hu
  -- a block that is being sent
  have send : ∀ S1 : ESys, EFine c mb del S1 → ∀ x H, S1.snd.threads[u]? = some ⟨H, none, some x⟩ → Can c S1 (PutDown u S1) := by
    intro S1 hf1 x hist hget
    have hd := deq_eq hf1.good.pot _ (List.mem_of_getElem? hget)
    simp only [Option.toList_some, List.length_singleton] at hd
    obtain ⟨s', hs'⟩ := @giveBack_noFault S1.snd u ⟨(addSource { hist with stats := hist.stats.add (sendStats x (.fail 0)) }
        { x with stats := x.stats.add (sendStats x (.fail 0)) }).1, none, none⟩
        (addSource { hist with stats := hist.stats.add (sendStats x (.fail 0)) }
        { x with stats := x.stats.add (sendStats x (.fail 0)) }).2 (by
          unfold addSource
          cases hist.globalCp with
          | true => simp only [if_true, List.length_singleton]; omega
          | false => simp only [Bool.false_eq_true, if_false, List.length_nil]; omega)
    have h1 : sStep S1.snd (.sent u (.fail 0)) = .ok s' := by simp only [sStep, hget]; exact hs'
    obtain ⟨H', l, h2, h3, -⟩ := sStep_sent hget rfl rfl h1
    have hthr : s'.threads = S1.snd.threads.set u ⟨H', none, none⟩ := by rw [h2]; rfl
    have hs : eStep c S1 (.s (.sent u (.fail 0))) = some { S1.setP u (if hist.globalCp then (S1.port u).leave (.ended false)
        else (S1.port u).leave .lost) with snd := s' } := by
      simp [eStep, eStepS, hget, ESys.snd?, ESys.setP, h1]
    refine .one hf1 _ hs rfl rfl (by rw [h2]; rfl) ⟨rfl, fun v hv => setP_other hv, fun v hv => ?_, ?_, ?_, ?_⟩
    · show s'.thr v = _
      rw [thr_set hget hthr, upd_apply, if_neg hv]
    · rw [thr_of_some hget]
      cases hg : hist.globalCp with
      | true => exact .inr (.inr rfl)
      | false => exact .inr (.inl (by simp [ESys.setP, upd_self, Port.leave]))
    · show (s'.thr u).opening = none
      rw [thr_set hget hthr, upd_self]
    · show (s'.thr u).cur = none
      rw [thr_set hget hthr, upd_self]
  have hget := some_of_lt hl
  have hone : (S.snd.thr u).opening = none ∨ (S.snd.thr u).cur = none :=
    hf.good.oneBusy _ (List.mem_of_getElem? hget)
  cases hth : S.snd.thr u with
  | mk hist opening cur =>
    rw [hth] at hget hone
    cases opening with
    | some x =>
      have : cur = none := by simpa using hone
      subst this
      have hs : eStep c S (.s (.openOk u)) = some { S with snd := { S.snd with
          q := { S.snd.q with deq := S.snd.q.deq + 1 },
          threads := S.snd.threads.set u ⟨hist, none, some (openedSource x)⟩ } } := by
        simp [eStep, eStepS, ESys.snd?, sStep, hget]
      have hget1 : (S.snd.threads.set u ⟨hist, none, some (openedSource x)⟩)[u]? = some ⟨hist, none, some (openedSource x)⟩ := by
        simp [hl]
      refine .cons hf _ hs rfl rfl rfl fun hf1 => (send _ hf1 _ _ hget1).mono fun S' h => ?_
      refine ⟨h.rcv, fun v hv => h.port v hv, fun v hv => ?_, ?_, h.free⟩
      · rw [h.thr v hv, thr_set (s := S.snd) hget rfl, upd_apply, if_neg hv]
      · rcases h.own with h | h | h
        · exact .inl h
        · exact .inr (.inl h)
        · rw [thr_set (s := S.snd) hget rfl, upd_self] at h
          rw [hth]; exact .inr (.inr h)
    | none =>
      cases cur with
      | some x => exact send S hf x hist hget
      | none => exact .here hf ⟨rfl, fun _ _ => rfl, fun _ _ => rfl, .inl rfl, by rw [hth], by rw [hth]⟩

/-- All threads put their blocks down. -/
theorem can_putDownAll {S : ESys} {t : Nat} (hf : EFine c mb del S) (ha : EAlive c t S) :
    Can c S fun S' => EAlive c t S' ∧ ∀ u, Free S' u := by
  have key : ∀ k, k ≤ c.n → Can c S fun S' => EAlive c t S' ∧ ∀ u, u < k → Free S' u := by
    intro k
    induction k with
    | zero => intro _; exact .here hf ⟨ha, by simp⟩
    | succ k ih =>
      intro hk
      refine (ih (by omega)).trans hf fun S1 hf1 h1 => (can_putDown hf1 (u := k) (by omega)).mono fun S2 h2 => ?_
      obtain ⟨a1, f1⟩ := h1
      refine ⟨⟨a1.lt, ?_, by rw [h2.rcv]; exact a1.rcv1, by rw [h2.rcv]; exact a1.rcv2⟩, fun u hu => ?_⟩
      · by_cases htk : t = k
        · subst htk
          rcases h2.own with h | h | h
          · rw [h]; exact a1.snd
          · rw [h]; simp
          · rw [a1.glob hf1] at h; cases h
        · rw [h2.port t htk]; exact a1.snd
      · by_cases huk : u = k
        · subst huk; exact h2.free
        · have := f1 u (by omega)
          unfold Free at this ⊢
          rw [h2.thr u huk]; exact this
  refine (key c.n (Nat.le_refl _)).imp hf fun S' hf' h => ⟨h.1, fun u => ?_⟩
  by_cases hu : u < c.n
  · exact h.2 u hu
  · have : S'.snd.thr u = {} := by
      simp [SSys.thr, List.getD_eq_getElem?_getD, List.getElem?_eq_none (by rw [hf'.len]; omega : S'.snd.threads.length ≤ u)]
    exact ⟨by rw [this], by rw [this]⟩

/-! ### The sender's other threads exit -/

/-- What a receiver thread says is not refused when the sender thread has put its block down. -/
theorem cp_not_refused {S : ESys} {u : Nat} (hg : Good c mb del S) (hz : ZInv S) (hfr : Free S u) (g : Bool) {k : Checkpoint}
    (hk : k.numBlocks = (S.port u).counted.length) (hzc : ZeroCp k) : refusedCp (S.hist u) k g = false := by
  have hl := hg.p.loc u
  have hz := hz.port u
  have hn : k.numBlocks ≤ (S.hist u).history.length := by
    have h1 := hl.pre.length_le
    have hg : gone (S.snd.thr u) (S.port u) = (S.snd.thr u).hist.history.map Source.wire := by
      simp [gone, hfr.2]
    rw [hg] at h1
    simp only [Port.have_, List.length_append, List.length_map] at h1
    rw [hk]
    show ((S.port u).counted.length : Int) ≤ ((S.snd.thr u).hist.history.length : Int)
    omega
  have h0 : 0 ≤ k.numBlocks := by omega
  unfold refusedCp setCheckpoint
  rw [if_neg (by omega)]
  have hv : ∃ r, validateCp (S.hist u).lastCp k g = .ok r ∧ r ≠ .invalid := by
    unfold validateCp
    cases hlc : (S.hist u).lastCp with
    | none => exact ⟨_, rfl, by simp⟩
    | some k0 =>
      obtain ⟨z1, z2⟩ := hz.lcp k0 hlc
      have hle : k0.numBlocks ≤ k.numBlocks := by rw [hk]; exact z2
      simp only
      rw [if_neg (by omega)]
      by_cases hgt : k.numBlocks > k0.numBlocks
      · rw [if_pos hgt]; exact ⟨_, rfl, by simp⟩
      · rw [if_neg hgt, if_pos ⟨by rw [hzc.1, z1.1], by rw [hzc.2.1, z1.2.1]⟩, if_neg (by simp [hzc.2.2, z1.2.2])]
        cases g <;> simp
  obtain ⟨r, h1, h2⟩ := hv
  rw [h1]
  cases r with
  | invalid => exact absurd rfl h2
  | _ => dsimp only; rw [if_neg (by omega)]

theorem own_not_refused {S : ESys} {u : Nat} (hf : EFine c mb del S) (hfr : Free S u) (g : Bool) :
    refusedCp (S.hist u) (S.port u).cp g = false :=
  cp_not_refused hf.good hf.zero hfr g rfl (zero_cp (hf.zero.port u).last)

theorem not_refused {S : ESys} {u : Nat} (hf : EFine c mb del S) (hu : u ∈ S.rcv.cps) (hfr : Free S u) :
    refusedCp (S.hist u) (S.cpv u) true = false := by
  obtain ⟨k1, k2, k3, k4, k5⟩ := (hf.good.p.loc u).failed hu
  rw [k5]; exact own_not_refused hf hfr true

theorem ending_fine {S S' : ESys} {v : Nat} {e : SEv} (hf : EFine c mb del S) (hfr : ∀ u, Free S u) (he : Ending v e)
    (hs : eStepS c S e = some S') :
    S'.refused = false ∧ S'.silent = false ∧ S'.snd.q.failed = S.snd.q.failed ∧ ∀ u, Free S' u := by
  have hfree : ∀ {s' : SSys} {t : Nat} {th th' : SThread}, S.snd.threads[t]? = some th → s'.threads = S.snd.threads.set t th' →
      th'.opening = th.opening → th'.cur = th.cur → ∀ u, (s'.thr u).opening = none ∧ (s'.thr u).cur = none := by
    intro s' t th th' h1 h2 h3 h4 u
    rw [thr_set h1 h2, upd_apply]
    split
    · have := hfr t
      unfold Free at this
      rw [thr_of_some h1] at this
      rw [h3, h4]; exact this
    · exact hfr u
  cases he with
  | openFail =>
    simp only [eStepS] at hs
    obtain ⟨s', h1, rfl⟩ := snd?_some hs
    obtain ⟨th, x, h2, h3, -⟩ := sStep_openFail h1
    have := (hfr v).1
    rw [thr_of_some h2, h3] at this; cases this
  | sent =>
    simp only [eStepS] at hs
    split at hs
    · rename_i h2
      have := (hfr v).2
      rw [thr_of_some h2] at this; cases this
    · cases hs
  | global =>
    simp only [eStepS] at hs
    split at hs
    · rename_i u cp l hp
      obtain ⟨s', h1, rfl⟩ := snd?_some hs
      obtain ⟨k1, k2⟩ := (hf.good.p.thr v).pr1 _ _ hp (u, cp) (by simp)
      have k1 : u ∈ S.rcv.cps := k1
      have k2 : cp = S.cpv u := k2
      have hu : u < S.snd.threads.length := by rw [hf.len]; exact hf.good.p.rlt u k1
      have h2 := sStep_globalCp (s := S.snd) hu h1
      obtain ⟨H', lb, h3, -, -, -⟩ := applyCp_shape h2
      refine ⟨?_, hf.sil, ?_, ?_⟩
      · simp only [hf.ref, Bool.false_or]
        rw [k2]; exact not_refused hf k1 (hfr u)
      · show s'.q.failed = _
        rw [h3]; rfl
      · exact hfree (s' := s') (th' := { S.snd.thr u with hist := H' }) (some_of_lt hu) (by rw [h3]; rfl) rfl rfl
    · cases hs
  | globalGo =>
    simp only [eStepS] at hs
    split at hs
    · split at hs
      · cases hs
      · cases hs; exact ⟨hf.ref, hf.sil, rfl, hfr⟩
    · cases hs
  | errDone =>
    simp only [eStepS] at hs
    split at hs
    · cases hs; exact ⟨hf.ref, hf.sil, rfl, hfr⟩
    · cases hs
  | giveUp =>
    simp only [eStepS] at hs
    split at hs
    · split at hs
      · cases hs; exact ⟨hf.ref, hf.sil, rfl, hfr⟩
      · cases hs
    · cases hs
  | exit =>
    simp only [eStepS] at hs
    split at hs
    · obtain ⟨s', h1, rfl⟩ := snd?_some hs
      obtain ⟨th, hth, h2, h3, rfl⟩ := sStep_exit h1
      exact ⟨hf.ref, hf.sil, rfl, hfree hth rfl rfl rfl⟩
    · cases hs

theorem ending_run {es : List EEvent} : ∀ {S S' : ESys}, EFine c mb del S → (∀ u, Free S u) →
    (∀ e ∈ es, ∃ v e', e = .s e' ∧ Ending v e') → eRun c S es = some S' →
    S'.refused = false ∧ S'.silent = false ∧ S'.snd.q.failed = S.snd.q.failed ∧ ∀ u, Free S' u := by
  induction es with
  | nil => intro S S' hf hfr _ h; cases h; exact ⟨hf.ref, hf.sil, rfl, hfr⟩
  | cons e es ih =>
    intro S S' hf hfr he h
    simp only [eRun] at h
    split at h
    · rename_i S1 h1
      obtain ⟨v, e', rfl, he'⟩ := he e (by simp)
      obtain ⟨a1, a2, a3, a4⟩ := ending_fine hf hfr he' h1
      have hf1 : EFine c mb del S1 := hf.run (es := [.s e']) (by simp [eRun, h1]) a1 a2
      obtain ⟨b1, b2, b3, b4⟩ := ih hf1 a4 (fun x hx => he x (by simp [hx])) h
      exact ⟨b1, b2, b3.trans a3, b4⟩
    · cases h

/-- All sender threads but `t` have exited, with no block in their hands. -/
structure Alone (c : ECfg) (t : Nat) (S : ESys) : Prop where
  free : ∀ u, Free S u
  use : ∀ u, u < c.n → u ≠ t → (S.hist u).inUse = false

theorem can_endOthers {S : ESys} {t : Nat} (hf : EFine c mb del S) (ha : EAlive c t S) (hfr : ∀ u, Free S u) :
    Can c S fun S' => EAlive c t S' ∧ Alone c t S' := by
  have key : ∀ k, k ≤ c.n → Can c S fun S' => EAlive c t S' ∧ (∀ u, Free S' u) ∧ ∀ u, u < k → u ≠ t → (S'.hist u).inUse = false := by
    intro k
    induction k with
    | zero => intro _; exact .here hf ⟨ha, hfr, by simp⟩
    | succ k ih =>
      intro hk
      refine (ih (by omega)).trans hf fun S1 hf1 h1 => ?_
      obtain ⟨a1, f1, u1⟩ := h1
      by_cases htk : k = t
      · exact .here hf1 ⟨a1, f1, fun u hu hut => u1 u (by omega) hut⟩
      obtain ⟨es, S2, g1, g2, g3, g4⟩ := lead_end _ k S1 hf1.good (by omega) rfl
      obtain ⟨b1, b2, b3, b4⟩ := ending_run hf1 f1 (fun e he => by
        obtain ⟨v, e', x1, -, x2⟩ := g1 e he
        exact ⟨v, e', x1, x2⟩) g2
      refine ⟨es, S2, g2, b1, b2, b3, ⟨a1.lt, ?_, by rw [g3.rcv]; exact a1.rcv1, by rw [g3.rcv]; exact a1.rcv2⟩, b4, ?_⟩
      · rw [g3.port t]
        · exact a1.snd
        · rintro (hlt | rfl)
          · have h1 := List.idxOf_eq_length (a1.notCp hf1)
            have h2 := List.idxOf_le_length (a := k) (l := S1.rcv.cps)
            omega
          · exact htk rfl
      · intro u hu hut
        by_cases huk : u = k
        · subst huk; exact g4
        · exact g3.use u (u1 u (by omega) hut)
  exact (key c.n (Nat.le_refl _)).mono fun S' h => ⟨h.1, h.2.1, h.2.2⟩

end Wdt
