import Verif.Model.Abort
import Verif.Props.Negotiation
import Verif.Props.ThreadsController
import Mathlib.Tactic.ByContra
/-
C46: an abort is never lost to the handling of a version mismatch.
C59: after a version mismatch the threads of a sender go on with one version, or end.
-/
namespace Wdt

/-! ### C46 -/

/-- Calls that belong to the handling of a version mismatch. -/
def MismatchCall : AbortCall → Prop
  | .abort c => c = eVERSION_MISMATCH
  | .clear => True

/-- **C46**: once a code other than VERSION_MISMATCH is set, no calls that handle a version
mismatch change it, however many and in whatever order. -/
theorem C46_kept (cur : ErrCode) (h0 : cur ≠ eOK) (hv : cur ≠ eVERSION_MISMATCH) (cs : List AbortCall)
    (h : ∀ c ∈ cs, MismatchCall c) : abortCalls cur cs = cur := by
  induction cs with
  | nil => rfl
  | cons c cs ih =>
    have hc := h c (by simp)
    unfold abortCalls at ih ⊢
    rw [List.foldl_cons]
    have ih' := ih (fun c hc => h c (by simp [hc]))
    cases c with
    | abort e =>
      simp only [MismatchCall] at hc
      subst hc
      show List.foldl _ (abortWith cur eVERSION_MISMATCH) cs = cur
      rw [show abortWith cur eVERSION_MISMATCH = cur by simp [abortWith, h0]]
      exact ih'
    | clear =>
      show List.foldl _ (clearAbort cur) cs = cur
      rw [show clearAbort cur = cur by simp [clearAbort, hv]]
      exact ih'

/-- **C46**: whatever is called afterwards, in whatever order (`abort` with an error, or the
handling of a version mismatch), the transfer stays aborted for a reason other than a
version mismatch; the last such reason is the one that is reported. -/
theorem C46_stays_aborted (cur : ErrCode) (h0 : cur ≠ eOK) (hv : cur ≠ eVERSION_MISMATCH) (cs : List AbortCall)
    (h : AbortCall.abort eOK ∉ cs) :
    abortCalls cur cs ≠ eOK ∧ abortCalls cur cs ≠ eVERSION_MISMATCH ∧
      (abortCalls cur cs = cur ∨ .abort (abortCalls cur cs) ∈ cs) := by
  induction cs generalizing cur with
  | nil => exact ⟨h0, hv, Or.inl rfl⟩
  | cons c cs ih =>
    have hcs : AbortCall.abort eOK ∉ cs := fun hc => h (by simp [hc])
    cases c with
    | abort e =>
      have hne : e ≠ eOK := fun he => h (by simp [he])
      by_cases hm : e = eVERSION_MISMATCH
      · have e1 : abortCalls cur (.abort e :: cs) = abortCalls cur cs := by
          unfold abortCalls
          rw [List.foldl_cons]
          simp [abortWith, hm, h0]
        rw [e1]
        obtain ⟨a, b, c⟩ := ih cur h0 hv hcs
        exact ⟨a, b, c.imp id (fun c => List.mem_cons_of_mem _ c)⟩
      · have e1 : abortCalls cur (.abort e :: cs) = abortCalls e cs := by
          unfold abortCalls
          rw [List.foldl_cons]
          simp [abortWith, hm]
        rw [e1]
        obtain ⟨a, b, c⟩ := ih e hne hm hcs
        refine ⟨a, b, Or.inr ?_⟩
        rcases c with c | c
        · rw [c]; simp
        · exact List.mem_cons_of_mem _ c
    | clear =>
      have e1 : abortCalls cur (.clear :: cs) = abortCalls cur cs := by
        unfold abortCalls
        rw [List.foldl_cons]
        simp [clearAbort, hv]
      rw [e1]
      obtain ⟨a, b, c⟩ := ih cur h0 hv hcs
      exact ⟨a, b, c.imp id (fun c => List.mem_cons_of_mem _ c)⟩

example : abortCalls eOK [.abort eVERSION_MISMATCH, .abort eABORTED_BY_APPLICATION, .clear, .abort eVERSION_MISMATCH,
    .clear] = eABORTED_BY_APPLICATION := by decide

/-- What a history calls. -/
def VEv.abortCode? : VEv → Option ErrCode
  | .abortMsg _ remote _ => some remote
  | .appAbort e => some e
  | _ => none

theorem settle_code (n : Nat) (s : VSys) : (VSys.settle n s).code = s.code := rfl
theorem settle_pc (n : Nat) (s : VSys) : (VSys.settle n s).pc = s.pc := rfl

/-- A step of an aborted sender: it stays aborted, and no thread begins the function of a
state. -/
theorem vStep_aborted {n : Nat} {s s' : VSys} {e : VEv} (h0 : s.code ≠ eOK) (hv : s.code ≠ eVERSION_MISMATCH)
    (he : e.abortCode? ≠ some eOK) (hs : vStep n s e = .ok s') :
    s'.code ≠ eOK ∧ s'.code ≠ eVERSION_MISMATCH ∧ ∀ t, s'.pc t = .working → s.pc t = .working := by
  have key : ∀ t p, p ≠ VPc.working → ∀ u, upd s.pc t p u = .working → s.pc u = .working := by
    intro t p hp u hu
    unfold upd at hu
    split at hu
    · exact absurd hu hp
    · exact hu
  have hab : ∀ e, e ≠ eOK → abortWith s.code e ≠ eOK ∧ abortWith s.code e ≠ eVERSION_MISMATCH := by
    intro e he
    unfold abortWith
    split
    · exact ⟨h0, hv⟩
    · next h => exact ⟨he, fun hm => h ⟨hm, h0⟩⟩
  have hcl : clearAbort s.code = s.code := by simp [clearAbort, hv]
  cases e with
  | check t ext =>
    simp only [vStep] at hs
    split at hs
    · split at hs
      · simp only [Res.ok.injEq] at hs
        subst hs
        have hx : curAbortCode ext s.code ≠ eOK ∧ curAbortCode ext s.code ≠ eVERSION_MISMATCH := by
          unfold curAbortCode
          split
          · decide
          · exact ⟨h0, hv⟩
        unfold VSys.doCheck
        rw [if_neg hx.1, if_neg hx.2]
        exact ⟨h0, hv, key t _ (by simp)⟩
      · cases hs
    · cases hs
  | work t =>
    simp only [vStep] at hs
    split at hs
    · cases hs; exact ⟨h0, hv, key t _ (by simp)⟩
    · cases hs
  | sawMismatch t =>
    simp only [vStep] at hs
    split at hs
    · cases hs; exact ⟨h0, hv, key t _ (by simp)⟩
    · cases hs
  | finish t =>
    simp only [vStep] at hs
    split at hs
    · cases hs; exact ⟨h0, hv, key t _ (by simp)⟩
    · cases hs
  | abortMsg t r v =>
    have hr : r ≠ eOK := fun h => he (by rw [h]; rfl)
    simp only [vStep] at hs
    split at hs
    · cases hs
      unfold VSys.doAbortMsg
      split
      · exact ⟨(hab r hr).1, (hab r hr).2, key t _ (by simp)⟩
      · exact ⟨(hab r hr).1, (hab r hr).2, key t _ (by simp)⟩
    · cases hs
  | enter t =>
    simp only [vStep] at hs
    split at hs
    · unfold VSys.doEnter at hs
      split at hs
      · cases hs
      · cases hs; exact ⟨h0, hv, key t _ (by simp)⟩
      · split at hs
        · cases hs
        · cases hs; exact ⟨h0, hv, key t _ (by simp)⟩
    · cases hs
  | pass t =>
    simp only [vStep] at hs
    split at hs
    · cases hs; exact ⟨h0, hv, key t _ (by simp)⟩
    · cases hs
  | ask t =>
    simp only [vStep] at hs
    split at hs
    · unfold VSys.doAsk at hs
      split at hs
      · cases hs; exact ⟨h0, hv, key t _ (by simp)⟩
      · cases hs
      · split at hs
        · cases hs
        · cases hs; exact ⟨h0, hv, key t _ (by simp)⟩
        · cases hs; exact ⟨h0, hv, key t _ (by simp)⟩
    · cases hs
  | resolve t u =>
    simp only [vStep] at hs
    split at hs
    · unfold VSys.doResolve at hs
      split at hs
      · cases hs; exact ⟨h0, hv, key t _ (by simp)⟩
      · split at hs
        · cases hs
        · cases hs; exact ⟨h0, hv, key t _ (by simp)⟩
        · cases hs
          exact ⟨by show clearAbort s.code ≠ _; rw [hcl]; exact h0, by show clearAbort s.code ≠ _; rw [hcl]; exact hv,
            key t _ (by simp)⟩
    · cases hs
  | appAbort e =>
    have hr : e ≠ eOK := fun h => he (by rw [h]; rfl)
    simp only [vStep, Res.ok.injEq] at hs
    subst hs
    exact ⟨(hab e hr).1, (hab e hr).2, fun _ h => h⟩

/-- **C46**, what it means for the transfer: once a sender is aborted for a reason other than
a version mismatch, then in every continuation (receivers that send anything except an abort
without an error, threads in any order, version mismatches handled meanwhile) it stays
aborted, and no thread begins another step of the protocol: a thread finishes at most the
function it is in. -/
theorem C46_threads_stop {n : Nat} (es : List VEv) {s s' : VSys} (h0 : s.code ≠ eOK) (hv : s.code ≠ eVERSION_MISMATCH)
    (hes : ∀ e ∈ es, e.abortCode? ≠ some eOK) (hs : vRun n s es = .ok s') :
    s'.code ≠ eOK ∧ s'.code ≠ eVERSION_MISMATCH ∧ ∀ t, s'.pc t = .working → s.pc t = .working := by
  induction es generalizing s with
  | nil => cases hs; exact ⟨h0, hv, fun _ h => h⟩
  | cons e es ih =>
    unfold vRun at hs
    split at hs
    · next s1 h1 =>
      obtain ⟨a, b, c⟩ := vStep_aborted h0 hv (hes e (by simp)) h1
      obtain ⟨a', b', c'⟩ := ih a b (fun e he => hes e (by simp [he])) hs
      exact ⟨a', b', fun t ht => c t (c' t ht)⟩
    · cases hs
    · cases hs

/-- Disagreement with the code: the error code of an ABORT message is not looked at.  One
without an error makes `abort` clear what the application set: the thread that read it ends,
the others continue as if nothing had been said. -/
theorem C46_violated_ok :
    ∃ s s', vRun 2 (.init 31) [.check 0 false, .check 1 false, .appAbort eABORTED_BY_APPLICATION] = .ok s ∧
      s.code = eABORTED_BY_APPLICATION ∧
      vRun 2 s [.abortMsg 0 eOK 31, .work 1, .check 1 false] = .ok s' ∧ s'.code = eOK ∧ s'.pc 1 = .working := by
  refine ⟨_, _, rfl, rfl, rfl, rfl, rfl⟩

/-- The message that does this. -/
example : decodeAbort [31, 0, 0, 0, 0, 0, 0, 0, 0, 0, 0, 0, 0] 0 13 = .ok (some (31, eOK, 0), 13) := by decide +kernel

/-! ### C59 -/

/-- In `processVersionMismatch` behind the barrier or at it, or ended. -/
def VPc.gated : VPc → Bool
  | .barrier => true
  | .asking => true
  | .inside => true
  | .ended => true
  | _ => false

/-- In the loop of the thread, or just entering `processVersionMismatch`. -/
def VPc.free : VPc → Bool
  | .check _ => true
  | .working => true
  | .enter => true
  | _ => false

/-- What holds in every state of a sender. -/
structure VInv (n : Nat) (s : VSys) : Prop where
  closed : s.complete = false → s.nego = .wait ∧ s.funnel = .start ∧ ∀ t, t < n → s.pc t ≠ .asking ∧ s.pc t ≠ .inside
  start : s.funnel = .start → s.nego = .wait
  progress : s.funnel = .progress → s.nego = .failed
  stop : s.funnel = .stop → s.nego ≠ .wait
  gate : s.complete = true → s.nego ≠ .resolved → ∀ t, t < n → (s.pc t).gated = true
  inside : ∀ t, t < n → s.pc t = .inside → s.funnel = .progress
  one : ∀ t u, t < n → u < n → s.pc t = .inside → s.pc u = .inside → t = u
  vers : ∀ t, t < n → (s.nego ≠ .resolved ∨ (s.pc t).free = true) → s.ver t = s.parentVer

theorem VInv.init (n : Nat) (v : Int) : VInv n (.init v) := by
  constructor <;> simp [VSys.init]

/-- The barrier may be complete afterwards. -/
theorem VInv.settle {n : Nat} {s : VSys} (h : VInv n s) : VInv n (VSys.settle n s) := by
  obtain ⟨h1, h2, h3, h4, h5, h6, h7, h8⟩ := h
  refine ⟨?_, h2, h3, h4, ?_, h6, h7, h8⟩
  · intro hc
    simp only [VSys.settle, Bool.or_eq_false_iff] at hc
    exact h1 hc.1
  · intro hc hn t ht
    simp only [VSys.settle, Bool.or_eq_true, List.all_eq_true, List.mem_range] at hc
    rcases hc with hc | hc
    · exact h5 hc hn t ht
    · have := hc t ht
      show (s.pc t).gated = true
      cases hp : s.pc t <;> rw [hp] at this <;> simp [VPc.arrived, VPc.gated] at this ⊢

set_option maxHeartbeats 2000000 in
theorem VInv.step {n : Nat} {s s' : VSys} {e : VEv} (h : VInv n s) (hs : vStep n s e = .ok s') : VInv n s' := by
  obtain ⟨h1, h2, h3, h4, h5, h6, h7, h8⟩ := h
  have ended : ∀ t, t < n → (s.funnel = .progress → s.pc t ≠ .inside) → VInv n { s with pc := upd s.pc t .ended } := by
    intro t ht hin
    constructor <;> simp only [upd] <;> grind [VPc.gated, VPc.free]
  cases e with
  | check t ext =>
    simp only [vStep] at hs
    split at hs
    · next ht =>
      split at hs
      · next m hm =>
        simp only [Res.ok.injEq] at hs
        subst hs
        unfold VSys.doCheck
        split
        · constructor <;> simp only [upd] <;> grind [VPc.gated, VPc.free]
        · split
          · constructor <;> simp only [upd] <;> grind [VPc.gated, VPc.free]
          · exact (ended t ht (by rw [hm]; simp)).settle
      · cases hs
    · cases hs
  | work t =>
    simp only [vStep] at hs
    split at hs
    · next ht =>
      simp only [Res.ok.injEq] at hs
      subst hs
      constructor <;> simp only [upd] <;> grind [VPc.gated, VPc.free]
    · cases hs
  | sawMismatch t =>
    simp only [vStep] at hs
    split at hs
    · next ht =>
      simp only [Res.ok.injEq] at hs
      subst hs
      constructor <;> simp only [upd] <;> grind [VPc.gated, VPc.free]
    · cases hs
  | finish t =>
    simp only [vStep] at hs
    split at hs
    · next ht =>
      simp only [Res.ok.injEq] at hs
      subst hs
      exact (ended t ht.1 (by rw [ht.2]; simp)).settle
    · cases hs
  | abortMsg t r v =>
    simp only [vStep] at hs
    split at hs
    · next ht =>
      simp only [Res.ok.injEq] at hs
      subst hs
      unfold VSys.doAbortMsg
      split
      · constructor <;> simp only [upd] <;> grind [VPc.gated, VPc.free]
      · refine VInv.settle ?_
        constructor <;> simp only [upd] <;> grind [VPc.gated, VPc.free]
    · cases hs
  | enter t =>
    simp only [vStep] at hs
    split at hs
    · next ht =>
      unfold VSys.doEnter at hs
      split at hs
      · cases hs
      · simp only [Res.ok.injEq] at hs
        subst hs
        exact (ended t ht.1 (by rw [ht.2]; simp)).settle
      · split at hs
        · cases hs
        · simp only [Res.ok.injEq] at hs
          subst hs
          refine VInv.settle ?_
          constructor <;> simp only [upd] <;> grind [VPc.gated, VPc.free]
    · cases hs
  | pass t =>
    simp only [vStep] at hs
    split at hs
    · next ht =>
      simp only [Res.ok.injEq] at hs
      subst hs
      constructor <;> simp only [upd] <;> grind [VPc.gated, VPc.free]
    · cases hs
  | ask t =>
    simp only [vStep] at hs
    split at hs
    · next ht =>
      unfold VSys.doAsk at hs
      split at hs
      · simp only [Res.ok.injEq] at hs
        subst hs
        constructor <;> simp only [upd] <;> grind [VPc.gated, VPc.free]
      · cases hs
      · split at hs
        · cases hs
        · simp only [Res.ok.injEq] at hs
          subst hs
          exact (ended t ht.1 (by rw [ht.2]; simp)).settle
        · simp only [Res.ok.injEq] at hs
          subst hs
          constructor <;> simp only [upd] <;> grind [VPc.gated, VPc.free]
    · cases hs
  | resolve t u =>
    simp only [vStep] at hs
    split at hs
    · next ht =>
      have hp := h6 t ht.1 ht.2
      have hf := h3 hp
      unfold VSys.doResolve at hs
      split at hs
      · simp only [Res.ok.injEq] at hs
        subst hs
        refine VInv.settle ?_
        constructor <;> simp only [upd] <;> grind [VPc.gated, VPc.free]
      · split at hs
        · cases hs
        · simp only [Res.ok.injEq] at hs
          subst hs
          refine VInv.settle ?_
          constructor <;> simp only [upd] <;> grind [VPc.gated, VPc.free]
        · simp only [Res.ok.injEq] at hs
          subst hs
          have hc : s.complete = true := by
            by_contra hc
            have := (h1 (by simpa using hc)).1
            rw [hf] at this
            cases this
          have hfree : ∀ u, u < n → (s.pc u).free = false := by
            intro u hu
            have := h5 hc (by rw [hf]; simp) u hu
            cases hp : s.pc u <;> rw [hp] at this <;> simp [VPc.gated, VPc.free] at this ⊢
          constructor <;> simp only [upd] <;> grind [VPc.gated, VPc.free]
    · cases hs
  | appAbort e =>
    simp only [vStep, Res.ok.injEq] at hs
    subst hs
    exact ⟨h1, h2, h3, h4, h5, h6, h7, h8⟩

theorem VInv.run {n : Nat} (es : List VEv) {s s' : VSys} (h : VInv n s) (hs : vRun n s es = .ok s') : VInv n s' := by
  induction es generalizing s with
  | nil => cases hs; exact h
  | cons e es ih =>
    unfold vRun at hs
    split at hs
    · next s1 h1 => exact ih (h.step h1) hs
    · cases hs
    · cases hs

/-- What thread `t` takes from an event as the version named by its receiver, `cur` before. -/
def namedBy (s : VSys) (t : Nat) (cur : Int) : VEv → Int
  | .abortMsg u r v => if u = t ∧ r = eVERSION_MISMATCH ∧ negotiateProtocol v (s.ver t) = v then v else cur
  | _ => cur

/-- The version that the receiver of thread `t` named in its last message, 0 if it named
none that the sender accepted. -/
def lastNamed (n : Nat) : VSys → List VEv → Nat → Int → Int
  | _, [], _, cur => cur
  | s, e :: es, t, cur => match vStep n s e with
    | .ok s' => lastNamed n s' es t (namedBy s t cur e)
    | _ => cur

/-- What an honest receiver sends: an answer VERSION_MISMATCH names a version that the
sender can use (`receiverOnSettings`: the smaller of the two). -/
def HonestAt (s : VSys) : VEv → Prop
  | .abortMsg t r v => r = eVERSION_MISMATCH → 0 < v ∧ negotiateProtocol v (s.ver t) = v
  | .appAbort e => e ≠ eVERSION_MISMATCH
  | _ => True

/-- Honest in every step. -/
def HonestRun (n : Nat) : VSys → List VEv → Prop
  | _, [] => True
  | s, e :: es => HonestAt s e ∧ ∀ s', vStep n s e = .ok s' → HonestRun n s' es

/-- On the way to the funnel. -/
def VPc.mismatch : VPc → Bool
  | .check m => m
  | .working => false
  | .enter => true
  | .barrier => true
  | .asking => true
  | .inside => true
  | .ended => false

/-- If a thread is on its way to the funnel or will be, some receiver named a version. -/
def Named (n : Nat) (s : VSys) : Prop :=
  (s.code = eVERSION_MISMATCH ∨ ∃ t, t < n ∧ (s.pc t).mismatch = true) → ∃ t, t < n ∧ 0 < s.negotiated t

theorem Named.step {n : Nat} {s s' : VSys} {e : VEv} (h : Named n s) (hon : HonestAt s e)
    (hs : vStep n s e = .ok s') : Named n s' := by
  have keep : ∀ (t : Nat) (p : VPc) (s1 : VSys), t < n → s1.pc = upd s.pc t p → s1.negotiated = s.negotiated →
      (s1.code = eVERSION_MISMATCH → s.code = eVERSION_MISMATCH) →
      (p.mismatch = true → s.code = eVERSION_MISMATCH ∨ (s.pc t).mismatch = true) → Named n s1 := by
    intro t p s1 ht hpc hn hc hp hx
    rw [hn]
    apply h
    rcases hx with hx | ⟨u, hu, hx⟩
    · exact Or.inl (hc hx)
    · rw [hpc] at hx
      unfold upd at hx
      split at hx
      · rcases hp hx with hp | hp
        · exact Or.inl hp
        · exact Or.inr ⟨t, ht, hp⟩
      · exact Or.inr ⟨u, hu, hx⟩
  have hcl : clearAbort s.code = eVERSION_MISMATCH → s.code = eVERSION_MISMATCH := by
    unfold clearAbort
    split
    · exact id
    · intro hx; cases hx
  cases e with
  | check t ext =>
    simp only [vStep] at hs
    split at hs
    · next ht =>
      split at hs
      · next m hm =>
        cases hs
        unfold VSys.doCheck
        split
        · refine keep t _ _ ht rfl rfl id (fun hp => Or.inr ?_)
          rw [hm]
          cases m
          · simp [VPc.mismatch] at hp
          · rfl
        · split
          · next h2 =>
            refine keep t _ _ ht rfl rfl id (fun hp => Or.inl ?_)
            unfold curAbortCode at h2
            split at h2
            · cases h2
            · exact h2
          · exact keep t _ _ ht rfl rfl id (fun hp => by cases hp)
      · cases hs
    · cases hs
  | work t =>
    simp only [vStep] at hs
    split at hs
    · next ht => cases hs; exact keep t _ _ ht.1 rfl rfl id (fun hp => by cases hp)
    · cases hs
  | sawMismatch t =>
    simp only [vStep] at hs
    split at hs
    · next ht => cases hs; exact keep t _ _ ht.1 rfl rfl id (fun _ => Or.inl ht.2.2)
    · cases hs
  | finish t =>
    simp only [vStep] at hs
    split at hs
    · next ht => cases hs; exact keep t _ _ ht.1 rfl rfl id (fun hp => by cases hp)
    · cases hs
  | abortMsg t r v =>
    simp only [vStep] at hs
    split at hs
    · next ht =>
      cases hs
      unfold VSys.doAbortMsg
      split
      · next hr =>
        intro _
        exact ⟨t, ht.1, by show 0 < upd s.negotiated t v t; rw [upd_self]; exact (hon hr.1).1⟩
      · next hr =>
        refine keep t _ _ ht.1 rfl rfl (fun hc => ?_) (fun hp => by cases hp)
        have hne : r ≠ eVERSION_MISMATCH := fun h1 => hr ⟨h1, (hon h1).2⟩
        have hc' : abortWith s.code r = eVERSION_MISMATCH := hc
        unfold abortWith at hc'
        rw [if_neg (fun h1 => hne h1.1)] at hc'
        exact absurd hc' hne
    · cases hs
  | enter t =>
    simp only [vStep] at hs
    split at hs
    · next ht =>
      unfold VSys.doEnter at hs
      split at hs
      · cases hs
      · cases hs; exact keep t _ _ ht.1 rfl rfl id (fun hp => by cases hp)
      · split at hs
        · cases hs
        · cases hs; exact keep t _ _ ht.1 rfl rfl id (fun hp => Or.inr (by rw [ht.2]; rfl))
    · cases hs
  | pass t =>
    simp only [vStep] at hs
    split at hs
    · next ht => cases hs; exact keep t _ _ ht.1 rfl rfl id (fun hp => Or.inr (by rw [ht.2.1]; rfl))
    · cases hs
  | ask t =>
    simp only [vStep] at hs
    split at hs
    · next ht =>
      unfold VSys.doAsk at hs
      split at hs
      · cases hs; exact keep t _ _ ht.1 rfl rfl id (fun hp => Or.inr (by rw [ht.2]; rfl))
      · cases hs
      · split at hs
        · cases hs
        · cases hs; exact keep t _ _ ht.1 rfl rfl id (fun hp => by cases hp)
        · cases hs; exact keep t _ _ ht.1 rfl rfl id (fun hp => by cases hp)
    · cases hs
  | resolve t u =>
    simp only [vStep] at hs
    split at hs
    · next ht =>
      unfold VSys.doResolve at hs
      split at hs
      · cases hs; exact keep t _ _ ht.1 rfl rfl id (fun hp => by cases hp)
      · split at hs
        · cases hs
        · cases hs; exact keep t _ _ ht.1 rfl rfl id (fun hp => by cases hp)
        · cases hs; exact keep t _ _ ht.1 rfl rfl hcl (fun hp => by cases hp)
    · cases hs
  | appAbort e =>
    simp only [vStep, Res.ok.injEq] at hs
    subst hs
    intro hx
    apply h
    rcases hx with hx | hx
    · have hx' : abortWith s.code e = eVERSION_MISMATCH := hx
      unfold abortWith at hx'
      rw [if_neg (fun h1 => hon h1.1)] at hx'
      exact absurd hx' hon
    · exact Or.inr hx

/-- The loop over the threads' versions fails only if none is set. -/
theorem combineNegotiated_error (vs : List Int) (acc : Int) (f : Fault) (h : combineNegotiated acc vs = .error f) :
    acc ≤ 0 ∧ ∀ x ∈ vs, x ≤ 0 := by
  induction vs generalizing acc with
  | nil =>
    unfold combineNegotiated at h
    split at h
    · cases h
    · next h1 => exact ⟨by omega, by simp⟩
  | cons x vs ih =>
    unfold combineNegotiated at h
    split at h
    · next hx =>
      split at h
      · cases h
      · exact absurd (ih x h).1 (by omega)
    · next hx =>
      obtain ⟨h1, h2⟩ := ih acc h
      refine ⟨h1, ?_⟩
      intro y hy
      rcases List.mem_cons.1 hy with rfl | hy
      · omega
      · exact h2 y hy

/-- A step does not fail a check. -/
theorem vStep_no_fault {n : Nat} {s : VSys} {e : VEv} (h : VInv n s) (hn : Named n s) (f : Fault) :
    vStep n s e ≠ .fault f := by
  obtain ⟨h1, h2, h3, h4, h5, h6, h7, h8⟩ := h
  intro hs
  have comp : s.nego ≠ .wait → s.complete = true := by
    intro hne
    by_contra hc
    exact hne (h1 (by simpa using hc)).1
  cases e with
  | enter t =>
    simp only [vStep] at hs
    split at hs
    · next ht =>
      unfold VSys.doEnter at hs
      split at hs
      · next hf =>
        have := h5 (comp (by rw [hf]; simp)) (by rw [hf]; simp) t ht.1
        rw [ht.2] at this
        cases this
      · cases hs
      · next hw =>
        split at hs
        · next hc =>
          have := h5 hc (by rw [hw]; simp) t ht.1
          rw [ht.2] at this
          cases this
        · cases hs
    · cases hs
  | ask t =>
    simp only [vStep] at hs
    split at hs
    · unfold VSys.doAsk at hs
      split at hs
      · cases hs
      · cases hs
      · next hst =>
        split at hs
        · next hw => exact h4 hst hw
        · cases hs
        · cases hs
    · cases hs
  | resolve t u =>
    simp only [vStep] at hs
    split at hs
    · next ht =>
      unfold VSys.doResolve at hs
      split at hs
      · cases hs
      · split at hs
        · next f' hf =>
          obtain ⟨u, hu, hp⟩ := hn (Or.inr ⟨t, ht.1, by rw [ht.2]; rfl⟩)
          have := (combineNegotiated_error _ _ _ hf).2 (s.negotiated u) (by
            rw [List.mem_map]; exact ⟨u, by simpa using hu, rfl⟩)
          omega
        · cases hs
        · cases hs
    · cases hs
  | check t ext =>
    simp only [vStep] at hs
    split at hs
    · split at hs <;> cases hs
    · cases hs
  | work t => simp only [vStep] at hs; split at hs <;> cases hs
  | sawMismatch t => simp only [vStep] at hs; split at hs <;> cases hs
  | finish t => simp only [vStep] at hs; split at hs <;> cases hs
  | abortMsg t r v => simp only [vStep] at hs; split at hs <;> cases hs
  | pass t => simp only [vStep] at hs; split at hs <;> cases hs
  | appAbort e => simp only [vStep] at hs; cases hs

/-- **C59**: with honest receivers, the handling of version mismatches fails no check of the
code, however many threads there are, whatever the order in which they run, and whatever
aborts happen meanwhile. -/
theorem C59_no_crash (n : Nat) (v : Int) (es : List VEv) (hon : HonestRun n (.init v) es) (f : Fault) :
    vRun n (.init v) es ≠ .fault f := by
  have key : ∀ (es : List VEv) (s : VSys), VInv n s → Named n s → HonestRun n s es → vRun n s es ≠ .fault f := by
    intro es
    induction es with
    | nil => intro s _ _ _ h; cases h
    | cons e es ih =>
      intro s h1 h2 h3 h4
      unfold vRun at h4
      split at h4
      · next s1 hs => exact ih s1 (h1.step hs) (h2.step h3.1 hs) (h3.2 s1 hs) h4
      · next f' hs => cases h4; exact vStep_no_fault h1 h2 _ hs
      · cases h4
  refine key es _ (VInv.init n v) ?_ hon
  intro hx
  exfalso
  rcases hx with hx | ⟨t, _, hx⟩
  · cases hx
  · simp [VSys.init, VPc.mismatch] at hx

/-- The version of the sender changes only when a thread resolves the mismatch, to the one
version that was named. -/
theorem vStep_parentVer {n : Nat} {s s' : VSys} {e : VEv} (hs : vStep n s e = .ok s') :
    s'.parentVer = s.parentVer ∨
      ((∃ t, t < n ∧ s.negotiated t = s'.parentVer) ∧ 0 < s'.parentVer ∧
        ∀ t, t < n → 0 < s.negotiated t → s.negotiated t = s'.parentVer) := by
  cases e with
  | resolve t u =>
    simp only [vStep] at hs
    split at hs
    · next ht =>
      unfold VSys.doResolve at hs
      split at hs
      · cases hs; exact Or.inl rfl
      · split at hs
        · cases hs
        · cases hs; exact Or.inl rfl
        · next v hv =>
          cases hs
          obtain ⟨h1, h2, _⟩ := C12_threads_agree 0 _ v hv
          right
          refine ⟨?_, h1, fun u hu hp => h2 _ (by rw [List.mem_map]; exact ⟨u, by simpa using hu, rfl⟩) hp⟩
          by_contra hno
          have hall : ∀ x ∈ (List.range n).map s.negotiated, x ≤ 0 := by
            intro x hx
            by_contra hp
            have := h2 x hx (by omega)
            rw [List.mem_map] at hx
            obtain ⟨u, hu, rfl⟩ := hx
            exact hno ⟨u, by simpa using hu, this⟩
          have key : ∀ (vs : List Int) (acc : Int), acc ≤ 0 → (∀ x ∈ vs, x ≤ 0) →
              combineNegotiated acc vs = .error .check := by
            intro vs
            induction vs with
            | nil => intro acc ha _; unfold combineNegotiated; rw [if_neg (by omega)]
            | cons x vs ih =>
              intro acc ha hx
              have hx0 := hx x (by simp)
              unfold combineNegotiated
              rw [if_neg (by omega)]
              exact ih acc ha (fun y hy => hx y (by simp [hy]))
          rw [key _ 0 (by omega) hall] at hv
          cases hv
    · cases hs
  | check t ext =>
    simp only [vStep] at hs
    split at hs
    · split at hs
      · cases hs
        unfold VSys.doCheck
        split
        · exact Or.inl rfl
        · split <;> exact Or.inl rfl
      · cases hs
    · cases hs
  | work t => simp only [vStep] at hs; split at hs <;> cases hs; exact Or.inl rfl
  | sawMismatch t => simp only [vStep] at hs; split at hs <;> cases hs; exact Or.inl rfl
  | finish t => simp only [vStep] at hs; split at hs <;> cases hs; exact Or.inl rfl
  | abortMsg t r v =>
    simp only [vStep] at hs
    split at hs
    · cases hs
      unfold VSys.doAbortMsg
      split <;> exact Or.inl rfl
    · cases hs
  | enter t =>
    simp only [vStep] at hs
    split at hs
    · unfold VSys.doEnter at hs
      split at hs
      · cases hs
      · cases hs; exact Or.inl rfl
      · split at hs
        · cases hs
        · cases hs; exact Or.inl rfl
    · cases hs
  | pass t => simp only [vStep] at hs; split at hs <;> cases hs; exact Or.inl rfl
  | ask t =>
    simp only [vStep] at hs
    split at hs
    · unfold VSys.doAsk at hs
      split at hs
      · cases hs; exact Or.inl rfl
      · cases hs
      · split at hs
        · cases hs
        · cases hs; exact Or.inl rfl
        · cases hs; exact Or.inl rfl
    · cases hs
  | appAbort e => simp only [vStep, Res.ok.injEq] at hs; subst hs; exact Or.inl rfl

/-- What `negotiated` holds. -/
theorem vStep_negotiated {n : Nat} {s s' : VSys} {e : VEv} (hs : vStep n s e = .ok s') (t : Nat) :
    s'.negotiated t = namedBy s t (s.negotiated t) e := by
  cases e with
  | resolve t u =>
    simp only [vStep] at hs
    split at hs
    · unfold VSys.doResolve at hs
      split at hs
      · cases hs; rfl
      · split at hs
        · cases hs
        · cases hs; rfl
        · cases hs; rfl
    · cases hs
  | check t ext =>
    simp only [vStep] at hs
    split at hs
    · split at hs
      · cases hs
        unfold VSys.doCheck
        split
        · rfl
        · split <;> rfl
      · cases hs
    · cases hs
  | work t => simp only [vStep] at hs; split at hs <;> cases hs; rfl
  | sawMismatch t => simp only [vStep] at hs; split at hs <;> cases hs; rfl
  | finish t => simp only [vStep] at hs; split at hs <;> cases hs; rfl
  | abortMsg u r v =>
    simp only [vStep] at hs
    split at hs
    · cases hs
      unfold VSys.doAbortMsg
      split
      · next h1 =>
        simp only [namedBy]
        by_cases hut : u = t
        · subst hut
          rw [if_pos ⟨rfl, h1⟩]
          exact upd_self _ _ _
        · rw [if_neg (fun h => hut h.1)]
          exact upd_ne _ _ (fun h => hut h.symm)
      · next h1 =>
        simp only [namedBy]
        rw [if_neg]
        · rfl
        rintro ⟨rfl, h2⟩
        exact h1 h2
    · cases hs
  | enter t =>
    simp only [vStep] at hs
    split at hs
    · unfold VSys.doEnter at hs
      split at hs
      · cases hs
      · cases hs; rfl
      · split at hs
        · cases hs
        · cases hs; rfl
    · cases hs
  | pass t => simp only [vStep] at hs; split at hs <;> cases hs; rfl
  | ask t =>
    simp only [vStep] at hs
    split at hs
    · unfold VSys.doAsk at hs
      split at hs
      · cases hs; rfl
      · cases hs
      · split at hs
        · cases hs
        · cases hs; rfl
        · cases hs; rfl
    · cases hs
  | appAbort e => simp only [vStep, Res.ok.injEq] at hs; subst hs; rfl

theorem vRun_split {n : Nat} (es1 es2 : List VEv) (s : VSys) : vRun n s (es1 ++ es2) = (match vRun n s es1 with
    | .ok s' => vRun n s' es2
    | .fault f => .fault f
    | .blocked => .blocked) := by
  induction es1 generalizing s with
  | nil => rfl
  | cons e es ih =>
    rw [List.cons_append, vRun, vRun.eq_2 n s e es]
    cases vStep n s e with
    | ok s' => exact ih s'
    | fault f => rfl
    | blocked => rfl

theorem lastNamed_run {n : Nat} (es : List VEv) (s s' : VSys) (t : Nat) (hs : vRun n s es = .ok s') :
    lastNamed n s es t (s.negotiated t) = s'.negotiated t := by
  induction es generalizing s with
  | nil => cases hs; rfl
  | cons e es ih =>
    unfold vRun at hs
    unfold lastNamed
    split at hs
    · next s1 h1 =>
      rw [h1]
      show lastNamed n s1 es t _ = _
      rw [← ih s1 hs, vStep_negotiated h1 t]
    · cases hs
    · cases hs

/-- **C59**: at every moment of every transfer, all threads that are not ended or waiting
for the outcome use one version: the one the sender began with, or one that the receiver of
some thread named and no receiver contradicted. -/
theorem C59_one_version (n : Nat) (v : Int) (es : List VEv) (s : VSys) (hs : vRun n (.init v) es = .ok s) :
    (∀ t, t < n → (s.pc t).free = true → s.ver t = s.parentVer) ∧
      (s.parentVer = v ∨ ∃ es1 es2, es = es1 ++ es2 ∧ 0 < s.parentVer ∧
        (∃ t, t < n ∧ lastNamed n (.init v) es1 t 0 = s.parentVer) ∧
        ∀ t, t < n → 0 < lastNamed n (.init v) es1 t 0 → lastNamed n (.init v) es1 t 0 = s.parentVer) := by
  refine ⟨fun t ht hf => ((VInv.init n v).run es hs).vers t ht (Or.inr hf), ?_⟩
  have key : ∀ (es2 es1 : List VEv) (s1 : VSys), vRun n (.init v) es1 = .ok s1 → vRun n s1 es2 = .ok s →
      s.parentVer = s1.parentVer ∨ ∃ es1' es2', es1 ++ es2 = es1' ++ es2' ∧ 0 < s.parentVer ∧
        (∃ t, t < n ∧ lastNamed n (.init v) es1' t 0 = s.parentVer) ∧
        ∀ t, t < n → 0 < lastNamed n (.init v) es1' t 0 → lastNamed n (.init v) es1' t 0 = s.parentVer := by
    intro es2
    induction es2 with
    | nil => intro es1 s1 _ h; cases h; exact Or.inl rfl
    | cons e es2 ih =>
      intro es1 s1 h1 h2
      unfold vRun at h2
      split at h2
      · next s2 hs2 =>
        have h1' : vRun n (.init v) (es1 ++ [e]) = .ok s2 := by
          rw [vRun_split, h1]
          simp only [vRun, hs2]
        rcases ih (es1 ++ [e]) s2 h1' h2 with h | h
        · rcases vStep_parentVer hs2 with h' | ⟨⟨t, ht, h3⟩, h4, h5⟩
          · exact Or.inl (h.trans h')
          · right
            refine ⟨es1, e :: es2, rfl, by rw [h]; exact h4, ?_, ?_⟩
            · refine ⟨t, ht, ?_⟩
              rw [h, ← h3]
              exact lastNamed_run es1 (.init v) s1 t h1
            · intro u hu
              rw [h]
              have := lastNamed_run es1 (.init v) s1 u h1
              rw [show (VSys.init v).negotiated u = 0 from rfl] at this
              rw [this]
              exact h5 u hu
        · right
          obtain ⟨a, b, hab, hr⟩ := h
          exact ⟨a, b, by rw [← hab]; simp, hr⟩
      · cases h2
      · cases h2
  exact key es [] _ rfl hs

/-! ### Nobody waits for ever -/

/-- The barrier is open, or some thread has yet to come; the funnel is worked on by a thread
inside. -/
structure Alive (n : Nat) (s : VSys) : Prop where
  some : 0 < n → s.complete = true ∨ ∃ t, t < n ∧ (s.pc t).arrived = false
  funnel : s.funnel = .progress → ∃ t, t < n ∧ s.pc t = .inside

theorem Alive.settle {n : Nat} {s : VSys} (h : s.funnel = .progress → ∃ t, t < n ∧ s.pc t = .inside) :
    Alive n (VSys.settle n s) := by
  refine ⟨fun hn => ?_, h⟩
  by_cases hc : (VSys.settle n s).complete = true
  · exact Or.inl hc
  · right
    unfold VSys.settle at hc
    simp only [Bool.or_eq_true, List.all_eq_true, List.mem_range, not_or] at hc
    by_contra hno
    apply hc.2
    intro t ht
    by_contra ha
    exact hno ⟨t, ht, by rw [settle_pc]; simpa using ha⟩

theorem Alive.step {n : Nat} {s s' : VSys} {e : VEv} (h : Alive n s) (hs : vStep n s e = .ok s') :
    Alive n s' := by
  have fun' : ∀ t p, (s.pc t ≠ .inside ∨ p = .inside) → s.funnel = .progress → ∃ u, u < n ∧ upd s.pc t p u = .inside := by
    intro t p hp hf
    obtain ⟨u, hu, hin⟩ := h.funnel hf
    refine ⟨u, hu, ?_⟩
    unfold upd
    split
    · next hut =>
      subst hut
      rcases hp with hp | hp
      · exact absurd hin hp
      · exact hp
    · exact hin
  have here : ∀ (t : Nat) (p : VPc) (s1 : VSys), t < n → s1.pc = upd s.pc t p → p.arrived = false →
      (s1.funnel = .progress → ∃ u, u < n ∧ s1.pc u = .inside) → Alive n s1 := by
    intro t p s1 ht hpc hp hf
    exact ⟨fun _ => Or.inr ⟨t, ht, by rw [hpc, upd_self]; exact hp⟩, hf⟩
  cases e with
  | check t ext =>
    simp only [vStep] at hs
    split at hs
    · next ht =>
      split at hs
      · next m hm =>
        cases hs
        have hne : s.pc t ≠ .inside := by rw [hm]; simp
        unfold VSys.doCheck
        split
        · exact here t _ _ ht rfl (by split <;> rfl) (fun' t _ (Or.inl hne))
        · split
          · exact here t _ _ ht rfl rfl (fun' t _ (Or.inl hne))
          · exact Alive.settle (fun' t _ (Or.inl hne))
      · cases hs
    · cases hs
  | work t =>
    simp only [vStep] at hs
    split at hs
    · next ht => cases hs; exact here t _ _ ht.1 rfl rfl (fun' t _ (Or.inl (by rw [ht.2]; simp)))
    · cases hs
  | sawMismatch t =>
    simp only [vStep] at hs
    split at hs
    · next ht => cases hs; exact here t _ _ ht.1 rfl rfl (fun' t _ (Or.inl (by rw [ht.2.1]; simp)))
    · cases hs
  | finish t =>
    simp only [vStep] at hs
    split at hs
    · next ht => cases hs; exact Alive.settle (fun' t _ (Or.inl (by rw [ht.2]; simp)))
    · cases hs
  | abortMsg t r v =>
    simp only [vStep] at hs
    split at hs
    · next ht =>
      cases hs
      unfold VSys.doAbortMsg
      split
      · exact here t _ _ ht.1 rfl rfl (fun' t _ (Or.inl (by rw [ht.2]; simp)))
      · exact Alive.settle (fun' t _ (Or.inl (by rw [ht.2]; simp)))
    · cases hs
  | enter t =>
    simp only [vStep] at hs
    split at hs
    · next ht =>
      have hne : s.pc t ≠ .inside := by rw [ht.2]; simp
      unfold VSys.doEnter at hs
      split at hs
      · cases hs
      · cases hs; exact Alive.settle (fun' t _ (Or.inl hne))
      · split at hs
        · cases hs
        · cases hs; exact Alive.settle (fun' t _ (Or.inl hne))
    · cases hs
  | pass t =>
    simp only [vStep] at hs
    split at hs
    · next ht => cases hs; exact here t _ _ ht.1 rfl rfl (fun' t _ (Or.inl (by rw [ht.2.1]; simp)))
    · cases hs
  | ask t =>
    simp only [vStep] at hs
    split at hs
    · next ht =>
      have hne : s.pc t ≠ .inside := by rw [ht.2]; simp
      unfold VSys.doAsk at hs
      split at hs
      · cases hs
        exact here t _ _ ht.1 rfl rfl (fun _ => ⟨t, ht.1, upd_self _ _ _⟩)
      · cases hs
      · split at hs
        · cases hs
        · cases hs; exact Alive.settle (fun' t _ (Or.inl hne))
        · cases hs; exact here t _ _ ht.1 rfl rfl (fun' t _ (Or.inl hne))
    · cases hs
  | resolve t u =>
    simp only [vStep] at hs
    split at hs
    · next ht =>
      unfold VSys.doResolve at hs
      split at hs
      · cases hs; exact Alive.settle (fun hf => by cases hf)
      · split at hs
        · cases hs
        · cases hs; exact Alive.settle (fun hf => by cases hf)
        · cases hs; exact here t _ _ ht.1 rfl rfl (fun hf => by cases hf)
    · cases hs
  | appAbort e =>
    simp only [vStep, Res.ok.injEq] at hs
    subst hs
    exact ⟨h.some, h.funnel⟩

theorem Alive.run {n : Nat} (es : List VEv) {s s' : VSys} (h : Alive n s) (hs : vRun n s es = .ok s') :
    Alive n s' := by
  induction es generalizing s with
  | nil => cases hs; exact h
  | cons e es ih =>
    unfold vRun at hs
    split at hs
    · next s1 h1 => exact ih (h.step h1) hs
    · cases hs
    · cases hs

/-- Steps that a thread takes on its own. -/
def VEv.own : VEv → Bool
  | .abortMsg _ _ _ => false
  | .appAbort _ => false
  | .sawMismatch _ => false
  | .finish _ => false
  | _ => true

/-- **C59**: no interleaving brings the threads into a state where one is not ended and all
wait for each other at the barrier or at the funnel. -/
theorem C59_no_deadlock (n : Nat) (v : Int) (es : List VEv) (s : VSys) (hs : vRun n (.init v) es = .ok s) (t : Nat)
    (ht : t < n) (hp : s.pc t ≠ .ended) : ∃ e, e.own = true ∧ vStep n s e ≠ .blocked := by
  have hi := (VInv.init n v).run es hs
  have ha : Alive n s := by
    refine Alive.run es ⟨fun hn => Or.inr ⟨0, hn, rfl⟩, fun hf => by cases hf⟩ hs
  have front : ∀ u, u < n → (s.pc u).arrived = false → s.pc u ≠ .asking → ∃ e, e.own = true ∧ vStep n s e ≠ .blocked := by
    intro u hu hu1 hu2
    cases hpc : s.pc u with
    | check m => exact ⟨.check u false, rfl, by simp [vStep, hu, hpc]⟩
    | working => exact ⟨.work u, rfl, by simp [vStep, hu, hpc]⟩
    | enter =>
      refine ⟨.enter u, rfl, ?_⟩
      simp only [vStep, hu, hpc, and_self, if_true]
      unfold VSys.doEnter
      split
      · simp
      · simp
      · split <;> simp
    | barrier => rw [hpc] at hu1; cases hu1
    | asking => exact absurd hpc hu2
    | inside =>
      refine ⟨.resolve u true, rfl, ?_⟩
      simp only [vStep, hu, hpc, and_self, if_true]
      unfold VSys.doResolve
      split
      · simp
      · split <;> simp
    | ended => rw [hpc] at hu1; cases hu1
  have asks : ∀ u, u < n → s.pc u = .asking → ∃ e, e.own = true ∧ vStep n s e ≠ .blocked := by
    intro u hu hpc
    cases hf : s.funnel with
    | progress =>
      obtain ⟨w, hw, hin⟩ := ha.funnel hf
      exact front w hw (by rw [hin]; rfl) (by rw [hin]; simp)
    | start => exact ⟨.ask u, rfl, by simp [vStep, hu, hpc, VSys.doAsk, hf]⟩
    | stop =>
      refine ⟨.ask u, rfl, ?_⟩
      simp only [vStep, hu, hpc, and_self, if_true, VSys.doAsk, hf]
      split <;> simp
  by_cases hb : s.pc t = .barrier
  · rcases ha.some (by omega) with hc | ⟨u, hu, hu1⟩
    · exact ⟨.pass t, rfl, by simp [vStep, ht, hb, hc]⟩
    · by_cases h2 : s.pc u = .asking
      · exact asks u hu h2
      · exact front u hu hu1 h2
  · by_cases h2 : s.pc t = .asking
    · exact asks t ht h2
    · refine front t ht ?_ h2
      cases hpc : s.pc t <;> first | rfl | exact absurd hpc hb | exact absurd hpc hp

/-! ### Cases -/

/-- A sender of three threads, two of whose receivers want version 25: all three go on with
it. -/
def mismatchRun : List VEv :=
  [.check 0 false, .check 1 false, .check 2 false, .abortMsg 1 eVERSION_MISMATCH 25, .check 1 false, .enter 1,
    .abortMsg 0 eVERSION_MISMATCH 25, .work 2, .check 0 false, .check 2 false, .enter 2, .enter 0,
    .pass 2, .pass 0, .ask 2, .resolve 2 true, .pass 1, .ask 0, .ask 1, .check 0 false, .check 2 false, .check 1 false]

/-- The run, with the versions the threads use at the end. -/
example : (match vRun 3 (.init 31) mismatchRun with
    | .ok s => some ((List.range 3).map s.ver, (List.range 3).map s.pc, s.parentVer, s.code)
    | _ => none) = some ([25, 25, 25], [.working, .working, .working], 25, eOK) := by decide +kernel

theorem vStep_mismatch {n : Nat} {s s' : VSys} {e : VEv} (h0 : s.code ≠ eOK)
    (he : e.abortCode? ≠ some eOK) (hr : ∀ t u, e ≠ .resolve t u) (hs : vStep n s e = .ok s') :
    s'.code ≠ eOK ∧ ∀ t, s'.pc t = .working → s.pc t = .working := by
  have key : ∀ t p, p ≠ VPc.working → ∀ u, upd s.pc t p u = .working → s.pc u = .working := by
    intro t p hp u hu
    unfold upd at hu
    split at hu
    · exact absurd hu hp
    · exact hu
  have hab : ∀ e, e ≠ eOK → abortWith s.code e ≠ eOK := by
    intro e he
    unfold abortWith
    split
    · exact h0
    · exact he
  cases e with
  | check t ext =>
    simp only [vStep] at hs
    split at hs
    · split at hs
      · simp only [Res.ok.injEq] at hs
        subst hs
        have hx : curAbortCode ext s.code ≠ eOK := by
          unfold curAbortCode
          split
          · decide
          · exact h0
        unfold VSys.doCheck
        rw [if_neg hx]
        split
        · exact ⟨h0, key t _ (by simp)⟩
        · exact ⟨h0, key t _ (by simp)⟩
      · cases hs
    · cases hs
  | work t =>
    simp only [vStep] at hs
    split at hs
    · cases hs; exact ⟨h0, key t _ (by simp)⟩
    · cases hs
  | sawMismatch t =>
    simp only [vStep] at hs
    split at hs
    · cases hs; exact ⟨h0, key t _ (by simp)⟩
    · cases hs
  | finish t =>
    simp only [vStep] at hs
    split at hs
    · cases hs; exact ⟨h0, key t _ (by simp)⟩
    · cases hs
  | abortMsg t r v =>
    have hr : r ≠ eOK := fun h => he (by rw [h]; rfl)
    simp only [vStep] at hs
    split at hs
    · cases hs
      unfold VSys.doAbortMsg
      split
      · exact ⟨hab r hr, key t _ (by simp)⟩
      · exact ⟨hab r hr, key t _ (by simp)⟩
    · cases hs
  | enter t =>
    simp only [vStep] at hs
    split at hs
    · unfold VSys.doEnter at hs
      split at hs
      · cases hs
      · cases hs; exact ⟨h0, key t _ (by simp)⟩
      · split at hs
        · cases hs
        · cases hs; exact ⟨h0, key t _ (by simp)⟩
    · cases hs
  | pass t =>
    simp only [vStep] at hs
    split at hs
    · cases hs; exact ⟨h0, key t _ (by simp)⟩
    · cases hs
  | ask t =>
    simp only [vStep] at hs
    split at hs
    · unfold VSys.doAsk at hs
      split at hs
      · cases hs; exact ⟨h0, key t _ (by simp)⟩
      · cases hs
      · split at hs
        · cases hs
        · cases hs; exact ⟨h0, key t _ (by simp)⟩
        · cases hs; exact ⟨h0, key t _ (by simp)⟩
    · cases hs
  | resolve t u => exact absurd rfl (hr t u)
  | appAbort e =>
    have hr : e ≠ eOK := fun h => he (by rw [h]; rfl)
    simp only [vStep, Res.ok.injEq] at hs
    subst hs
    exact ⟨hab e hr, fun _ h => h⟩

/-- **C59 (no thread goes on meanwhile).**  From the moment a receiver asks for another
version until the threads have agreed on one, no thread begins another step of the protocol
with the old version. -/
theorem C59_waits {n : Nat} (es : List VEv) {s s' : VSys} (h0 : s.code = eVERSION_MISMATCH)
    (hes : ∀ e ∈ es, e.abortCode? ≠ some eOK) (hr : ∀ e ∈ es, ∀ t u, e ≠ .resolve t u) (hs : vRun n s es = .ok s') :
    s'.code ≠ eOK ∧ ∀ t, s'.pc t = .working → s.pc t = .working := by
  have key : ∀ (es : List VEv) (s : VSys), s.code ≠ eOK → (∀ e ∈ es, e.abortCode? ≠ some eOK) →
      (∀ e ∈ es, ∀ t u, e ≠ .resolve t u) → vRun n s es = .ok s' → s'.code ≠ eOK ∧ ∀ t, s'.pc t = .working → s.pc t = .working := by
    intro es
    induction es with
    | nil => intro s h0 _ _ hs; cases hs; exact ⟨h0, fun _ h => h⟩
    | cons e es ih =>
      intro s h0 hes hr hs
      unfold vRun at hs
      split at hs
      · next s1 h1 =>
        obtain ⟨a, c⟩ := vStep_mismatch h0 (hes e (by simp)) (hr e (by simp)) h1
        obtain ⟨a', c'⟩ := ih s1 a (fun e he => hes e (by simp [he])) (fun e he => hr e (by simp [he])) hs
        exact ⟨a', fun t ht => c t (c' t ht)⟩
      · cases hs
      · cases hs
  exact key es s (by rw [h0]; decide) hes hr hs

/-- In `mismatchRun` that is so from its fourth event to the fifteenth. -/
example : (match vRun 3 (.init 31) (mismatchRun.take 4) with
    | .ok s => some s.code
    | _ => none) = some eVERSION_MISMATCH ∧
    ∀ e ∈ (mismatchRun.drop 4).take 11, e.abortCode? ≠ some eOK ∧ e ≠ .resolve 2 true := by decide +kernel

/-- What is honest can be decided along a run. -/
def honestB (n : Nat) : VSys → List VEv → Bool
  | _, [] => true
  | s, e :: es => (match e with
      | .abortMsg t r v => decide (r = eVERSION_MISMATCH → 0 < v ∧ negotiateProtocol v (s.ver t) = v)
      | .appAbort e => decide (e ≠ eVERSION_MISMATCH)
      | _ => true) && (match vStep n s e with
      | .ok s' => honestB n s' es
      | _ => true)

theorem honestB_sound (n : Nat) (es : List VEv) (s : VSys) (h : honestB n s es = true) : HonestRun n s es := by
  induction es generalizing s with
  | nil => trivial
  | cons e es ih =>
    unfold honestB at h
    rw [Bool.and_eq_true] at h
    refine ⟨?_, ?_⟩
    · cases e with
      | abortMsg t r v =>
        have h1 := h.1
        simp only [decide_eq_true_eq] at h1
        exact h1
      | appAbort e => simpa [HonestAt] using h.1
      | _ => trivial
    · intro s' hs
      have h2 := h.2
      rw [hs] at h2
      exact ih s' h2

example : HonestRun 3 (.init 31) mismatchRun := honestB_sound _ _ _ (by decide +kernel)

/-- Disagreement with the code: a receiver that answers VERSION_MISMATCH with a version the
sender cannot use sets the abort code all the same (line 852 before the test in line 854).
The other threads then resolve a mismatch for which nobody named a version, and the sender
process fails `WDT_CHECK_GT(negotiatedProtocol, 0)` (SenderThread.cpp:911). -/
theorem C59_violated_unsupported (v w : Int) (h : negotiateProtocol w v ≠ w) :
    vRun 2 (.init v) [.check 0 false, .check 1 false, .abortMsg 0 eVERSION_MISMATCH w, .work 1, .check 1 false, .enter 1,
      .pass 1, .ask 1, .resolve 1 true] = .fault .check := by
  have h' : ¬ (negotiateProtocol w v = w) := h
  simp [vRun, vStep, VSys.init, VSys.doCheck, VSys.doAbortMsg, VSys.doEnter, VSys.doAsk, VSys.doResolve, VSys.settle,
    curAbortCode, abortWith, upd, h', VPc.arrived, combineNegotiated, eOK, eVERSION_MISMATCH, List.range_succ]

/-- A newer receiver version does so, as does one below 10. -/
example : negotiateProtocol 32 31 ≠ 32 ∧ negotiateProtocol 9 31 ≠ 9 := by decide +kernel

end Wdt
