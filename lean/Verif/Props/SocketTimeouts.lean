import Verif.Model.SocketTimeouts
import Verif.Props.SocketWait
/-
C76: the system is given the timeouts that `C76_io` needs.
-/
namespace Wdt

/-- Calls as the system makes them on a socket with the timeout `tv`: unless both numbers are 0, no call
takes longer (a negative number of seconds means not to wait at all). -/
def Obeys (tv : TimeVal) (calls : List IoCall) : Prop :=
  ∀ c ∈ calls, 0 ≤ c.dur ∧ (tv ≠ ⟨0, 0⟩ → c.dur * 1000 ≤ max 0 (tv.sec * 1000000 + tv.usec)) ∧ 0 ≤ c.moved

theorem timevalOf_pos {m : Int} (h : 0 < m) :
    0 ≤ (timevalOf m).usec ∧ (timevalOf m).usec < 1000000 ∧ (timevalOf m).sec * 1000000 + (timevalOf m).usec = m * 1000 ∧
      timevalOf m ≠ ⟨0, 0⟩ := by
  have h1 : m.tdiv 1000 = m / 1000 := Int.tdiv_eq_ediv_of_nonneg (by omega)
  have h2 : m.tmod 1000 = m % 1000 := Int.tmod_eq_emod_of_nonneg (by omega)
  unfold timevalOf
  rw [h1, h2]
  refine ⟨by dsimp only; omega, by dsimp only; omega, by dsimp only; omega, fun h => ?_⟩
  cases h' : m / 1000 <;> simp only [TimeVal.mk.injEq] at h <;> omega

theorem setSocketTimeouts_rcv (interval readTimeout writeTimeout : Int) :
    (setSocketTimeouts interval readTimeout writeTimeout {}).rcv =
      if 0 < effTimeout interval readTimeout then setTv ⟨0, 0⟩ (timevalOf (effTimeout interval readTimeout)) else ⟨0, 0⟩ := by
  unfold setSocketTimeouts
  dsimp only
  split <;> split <;> rfl

theorem setSocketTimeouts_snd (interval readTimeout writeTimeout : Int) :
    (setSocketTimeouts interval readTimeout writeTimeout {}).snd =
      if 0 < effTimeout interval writeTimeout then setTv ⟨0, 0⟩ (timevalOf (effTimeout interval writeTimeout)) else ⟨0, 0⟩ := by
  unfold setSocketTimeouts
  dsimp only
  split <;> split <;> rfl

/-- The timeouts of a new connection are, to the microsecond, the smaller ones of the network timeout and
the interval between checks for an abort, each for its own direction; there is none only if the user
switched off both. -/
theorem C76_socket_timeouts (interval readTimeout writeTimeout : Int) :
    let s := setSocketTimeouts interval readTimeout writeTimeout {}
    (∀ m, 0 < m → (0 < interval ∨ 0 < readTimeout) → (0 < interval → m ≤ interval) → (0 < readTimeout → m ≤ readTimeout) →
      (m = interval ∨ m = readTimeout) → s.rcv.sec * 1000000 + s.rcv.usec = m * 1000) ∧
    (∀ m, 0 < m → (0 < interval ∨ 0 < writeTimeout) → (0 < interval → m ≤ interval) → (0 < writeTimeout → m ≤ writeTimeout) →
      (m = interval ∨ m = writeTimeout) → s.snd.sec * 1000000 + s.snd.usec = m * 1000) ∧
    (interval ≤ 0 → readTimeout ≤ 0 → s.rcv = ⟨0, 0⟩) ∧ (interval ≤ 0 → writeTimeout ≤ 0 → s.snd = ⟨0, 0⟩) := by
  have hr := setSocketTimeouts_rcv interval readTimeout writeTimeout
  have hw := setSocketTimeouts_snd interval readTimeout writeTimeout
  have key : ∀ net m : Int, 0 < m → (0 < interval → m ≤ interval) → (0 < net → m ≤ net) → (m = interval ∨ m = net) →
      (if 0 < effTimeout interval net then setTv ⟨0, 0⟩ (timevalOf (effTimeout interval net)) else ⟨0, 0⟩) = timevalOf m := by
    intro net m h0 h1 h2 h3
    have he : effTimeout interval net = m := by
      unfold effTimeout
      split
      · omega
      · split <;> omega
    obtain ⟨k1, k2, _⟩ := timevalOf_pos h0
    rw [he, if_pos h0, setTv, if_pos ⟨k1, k2⟩]
  have off : ∀ net : Int, interval ≤ 0 → net ≤ 0 → ¬ 0 < effTimeout interval net := by
    intro net h1 h2
    unfold effTimeout
    rw [if_pos h1]
    omega
  dsimp only
  rw [hr, hw]
  refine ⟨fun m h0 _ h1 h2 h3 => ?_, fun m h0 _ h1 h2 h3 => ?_, fun h1 h2 => if_neg (off _ h1 h2), fun h1 h2 => if_neg (off _ h1 h2)⟩
  · rw [key _ m h0 h1 h2 h3]; exact (timevalOf_pos h0).2.2.1
  · rw [key _ m h0 h1 h2 h3]; exact (timevalOf_pos h0).2.2.1

theorem obeys_sane {interval net : Int} {tv : TimeVal} {calls : List IoCall}
    (ht : 0 < effTimeout interval net → tv = timevalOf (effTimeout interval net)) (h : Obeys tv calls) :
    Sane (effTimeout interval net) calls := by
  intro c hc
  obtain ⟨h1, h2, h3⟩ := h c hc
  refine ⟨h1, fun hp => ?_, h3⟩
  obtain ⟨_, _, k3, k4⟩ := timevalOf_pos hp
  rw [ht hp] at h2
  have := h2 k4
  omega

/-- **C76** with the timeouts as wdt sets them: a read on a connection whose system calls obey the
timeout for reading, and a write on one whose calls obey that for writing, end in time and notice an
abort in time. -/
theorem C76_io_as_set (interval timeoutMs readTimeout writeTimeout : Int) (tryFull write : Bool) (abortAt : Option Int)
    (numBytes : Int) (calls : List IoCall)
    (ho : Obeys (if write then (setSocketTimeouts interval readTimeout writeTimeout {}).snd
      else (setSocketTimeouts interval readTimeout writeTimeout {}).rcv) calls) (r t' : Int)
    (h : ioLoop interval timeoutMs tryFull abortAt numBytes 0 0 calls = some (r, t')) :
    (0 < timeoutMs → 0 < interval → t' < timeoutMs + interval) ∧
    (0 < timeoutMs → 0 < (if write then writeTimeout else readTimeout) → t' < timeoutMs + (if write then writeTimeout else readTimeout)) ∧
    (∀ a, abortAt = some a → 0 < interval → t' ≤ max a 0 + interval) := by
  have tv : ∀ e : Int, 0 < e → setTv ⟨0, 0⟩ (timevalOf e) = timevalOf e := fun e he => by
    obtain ⟨k1, k2, _⟩ := timevalOf_pos he
    rw [setTv, if_pos ⟨k1, k2⟩]
  have hs : Sane (effTimeout interval (if write then writeTimeout else readTimeout)) calls := by
    refine obeys_sane ?_ ho
    cases write with
    | true =>
      intro he
      simp only [if_true] at he ⊢
      rw [setSocketTimeouts_snd, if_pos he, tv _ he]
    | false =>
      intro he
      simp only [Bool.false_eq_true, if_false] at he ⊢
      rw [setSocketTimeouts_rcv, if_pos he, tv _ he]
  obtain ⟨made, rest, _, _, _, h1, h2, h3⟩ := (C76_io interval timeoutMs _ tryFull abortAt numBytes calls hs).1 r t' h
  exact ⟨h1, h2, fun a ha hi => (h3 a ha hi).1⟩

/-- The defaults: 200 ms between checks, 5 s for reading and writing. -/
example : setSocketTimeouts 200 5000 5000 {} = { rcv := ⟨0, 200000⟩, snd := ⟨0, 200000⟩ } := by decide

/-- Without checks for an abort. -/
example : setSocketTimeouts 0 5250 0 {} = { rcv := ⟨5, 250000⟩, snd := ⟨0, 0⟩ } := by decide

/-- A read of 100 bytes from a peer that sends 40 and then falls silent. -/
example : Obeys (setSocketTimeouts 200 5000 5000 {}).rcv [⟨.bytes 40, 30⟩, ⟨.again, 200⟩, ⟨.again, 200⟩, ⟨.again, 200⟩] := by
  intro c hc
  simp only [List.mem_cons, List.not_mem_nil, or_false] at hc
  rcases hc with rfl | rfl | rfl | rfl <;> decide

end Wdt
