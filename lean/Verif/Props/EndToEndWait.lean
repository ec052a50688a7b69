import Mathlib.Logic.Relation
import Verif.Lemmas.EndToEndStop
import Verif.Props.EndToEnd
/-
C71: waiting for each other, sender threads cannot block the transfer.
-/
namespace Wdt

/-- Sender thread `t` is in `setGlobalCheckpoint` and waits there for thread `u` to exit
(ThreadTransferHistory.cpp:58-65). -/
def WaitsFor (S : ESys) (t u : Nat) : Prop :=
  ∃ cp l, (S.port t).sph = .processing ((u, cp) :: l) true ∧ (S.hist u).inUse = true

/-- Steps that need neither the receiver nor a working connection: a file cannot be opened, a
block cannot be sent, a thread handles the checkpoints of an ERR command that it has already read,
gives up, exits. -/
def NeedsNobody (e : EEvent) : Prop :=
  ∃ t, e = .s (.openFail t) ∨ e = .s (.sent t (.fail 0)) ∨ e = .s (.global t) ∨ e = .s (.globalGo t) ∨
    e = .s (.errDone t) ∨ e = .s (.giveUp t) ∨ e = .s (.exit t)

/-- No sender thread waits, through other threads or directly, for itself. -/
theorem C71_no_circle (c : ECfg) (mb : Int) (del : Bool) (es : List EEvent) (S : ESys)
    (h : eRun c (ESys.init c mb del) es = some S) (t : Nat) : ¬ Relation.TransGen (WaitsFor S) t t := by
  have hg := (Good.init c mb del).run h
  have hlt : ∀ a b, Relation.TransGen (WaitsFor S) a b → S.rcv.cps.idxOf b < S.rcv.cps.idxOf a := by
    intro a b hab
    have one : ∀ x y, WaitsFor S x y → S.rcv.cps.idxOf y < S.rcv.cps.idxOf x := by
      rintro x y ⟨cp, l, hp, -⟩
      exact (hg.w x _ (.inr ⟨true, hp⟩) (y, cp) (by simp)).lt
    induction hab with
    | single h1 => exact one _ _ h1
    | tail _ h2 ih => exact Nat.lt_trans (one _ _ h2) ih
  intro ht
  exact Nat.lt_irrefl _ (hlt t t ht)

/-- Whatever has happened so far, the sender can end: there are steps, for which neither the
receiver nor a working connection is needed, after which all its threads have exited.  None of
them trips a check or undefined behaviour. -/
theorem C71_sender_can_end (c : ECfg) (mb : Int) (del : Bool) (es : List EEvent) (S : ESys)
    (h : eRun c (ESys.init c mb del) es = some S) :
    ∃ es' S', (∀ e ∈ es', NeedsNobody e) ∧ eRun c S es' = some S' ∧ ∀ t, t < c.n → (S'.hist t).inUse = false := by
  have hg := (Good.init c mb del).run h
  have key : ∀ k, k ≤ c.n → ∃ es' S', (∀ e ∈ es', NeedsNobody e) ∧ eRun c S es' = some S' ∧
      ∀ t, t < k → (S'.hist t).inUse = false := by
    intro k
    induction k with
    | zero => intro _; exact ⟨[], S, by simp, rfl, by simp⟩
    | succ k ih =>
      intro hk
      obtain ⟨es1, S1, h1, h2, h3⟩ := ih (by omega)
      obtain ⟨es2, S2, g1, g2, g3, g4⟩ := lead_end _ k S1 (hg.run h2) (by omega) rfl
      refine ⟨es1 ++ es2, S2, ?_, eRun_append h2 g2, ?_⟩
      · intro e he
        rcases List.mem_append.mp he with he | he
        · exact h1 e he
        · obtain ⟨v, e', rfl, -, he'⟩ := g1 e he
          refine ⟨v, ?_⟩
          cases he' <;> simp
      · intro t ht
        by_cases hlt : t < k
        · exact g3.use t (h3 t hlt)
        · have : t = k := by omega
          subst this; exact g4
  exact key c.n (Nat.le_refl _)

/-- The case that matters: thread 0 waits for thread 1, which still sends. -/
example : ∃ S, eRun { n := 2 } (ESys.init { n := 2 } 0 false) (exGood.take 35) = some S ∧ WaitsFor S 0 1 := by
  have h : (match eRun { n := 2 } (ESys.init { n := 2 } 0 false) (exGood.take 35) with
      | some S => decide ((S.port 0).sph = .processing [(1, S.cpv 1)] true ∧ (S.hist 1).inUse = true)
      | none => false) = true := by decide +kernel
  split at h
  · rename_i S hS
    exact ⟨S, hS, S.cpv 1, [], of_decide_eq_true h⟩
  · cases h

end Wdt
