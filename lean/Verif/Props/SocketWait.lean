import Verif.Model.Sockets
/-
C76: operations on the network keep to their timeouts and notice an abort.
-/
namespace Wdt

theorem isBy_some {r t : Int} : isBy (some r) t = true ↔ r ≤ t := by simp [isBy]

/-- What `poll` with a timeout that is not negative does. -/
theorem pollOnce_spec {ready : Option Int} {now p : Int} (hp : 0 ≤ p) :
    ∃ b t, pollOnce ready now p = .ok (b, t) ∧ now ≤ t ∧ t ≤ now + max p 1 ∧
      (b = true → isBy ready t = true ∧ t ≤ now + p) ∧
      (b = false → t = now + max p 1 ∧ isBy ready (now + p) = false) := by
  unfold pollOnce
  cases ready with
  | none => exact ⟨false, _, by rw [if_neg (by omega)], by omega, by omega, by simp, by simp [isBy]⟩
  | some r =>
    by_cases h1 : r ≤ now
    · exact ⟨true, _, if_pos h1, by omega, by omega, by simp [isBy]; omega, by simp⟩
    · by_cases h2 : p < 0 ∨ r ≤ now + p
      · exact ⟨true, _, by simp only []; rw [if_neg h1, if_pos h2], by omega, by omega, by simp [isBy]; omega, by simp⟩
      · exact ⟨false, _, by simp only []; rw [if_neg h1, if_neg h2], by omega, by omega, by simp, by simp [isBy]; omega⟩

/-- What is promised of a wait that started at `start` and ended at `t`. -/
structure InTime (interval timeout : Int) (ready abortAt : Option Int) (start : Int) (o : WOut) (t : Int) : Prop where
  after : start ≤ t
  time : t ≤ start + timeout
  isReady : o = .ready → isBy ready t = true
  isLate : o = .timeout → isBy ready (start + timeout) = false ∧ t = start + timeout
  isAborted : o = .abort → isBy abortAt t = true
  notices : ∀ a, abortAt = some a → 0 < interval → t ≤ max a start + interval

theorem acceptWait_spec {interval timeout : Int} {ready abortAt : Option Int} {start : Int} (now : Int)
    (h1 : start ≤ now) (h2 : now ≤ start + timeout) (h3 : now = start + timeout → isBy ready now = false)
    (h4 : ∀ a, abortAt = some a → 0 < interval → now ≤ max a start + interval) :
    ∃ o t, acceptWait interval timeout ready abortAt start now = .ok (o, t) ∧
      InTime interval timeout ready abortAt start o t := by
  induction hm : (timeout - (now - start)).toNat using Nat.strongRecOn generalizing now with
  | ind m ih =>
    rw [acceptWait]
    by_cases ht : timeout ≤ now - start
    · rw [if_pos ht]
      have e : now = start + timeout := by omega
      refine ⟨.timeout, now, rfl, by omega, by omega, by simp, fun _ => ?_, by simp, h4⟩
      exact ⟨by rw [← e]; exact h3 e, e⟩
    · rw [if_neg ht]
      by_cases ha : 0 < interval ∧ isBy abortAt now = true
      · rw [if_pos ha]
        exact ⟨.abort, now, rfl, by omega, by omega, by simp, by simp, fun _ => ha.2, h4⟩
      · rw [if_neg ha]
        generalize hp : (if 0 < interval then min (timeout - (now - start)) interval else timeout - (now - start)) = p
        have hp1 : 1 ≤ p ∧ p ≤ timeout - (now - start) ∧ (0 < interval → p ≤ interval) := by
          rw [← hp]; split <;> omega
        have ha2 : ∀ a, abortAt = some a → 0 < interval → now < a := by
          intro a e hi
          by_cases hlt : now < a
          · exact hlt
          · exact absurd ⟨hi, by rw [e, isBy_some]; omega⟩ ha
        obtain ⟨b, t, hb, g1, g2, g3, g4⟩ := pollOnce_spec (ready := ready) (now := now) (p := p) (by omega)
        split
        · rename_i f hf; rw [hb] at hf; cases hf
        · rename_i t' hf
          rw [hb] at hf; cases hf
          refine ⟨.ready, _, rfl, by omega, by omega, fun _ => (g3 rfl).1, by simp, by simp, ?_⟩
          intro a e hi
          have := ha2 a e hi
          have := hp1.2.2 hi
          omega
        · rename_i t' hf
          rw [hb] at hf; cases hf
          have g5 := g4 rfl
          refine ih _ ?_ _ (by omega) (by omega) ?_ ?_ rfl
          · omega
          · intro e
            have : now + p = t := by omega
            rw [← this]; exact g5.2
          · intro a e hi
            have := ha2 a e hi
            have := hp1.2.2 hi
            omega

/-- **C76**: a receiver thread that waits for a connection stops waiting when one comes, when the
timeout has expired and not before, or, when aborts are checked for, at most one interval after
the abort. -/
theorem C76_accept (interval timeout : Int) (ready abortAt : Option Int) (start : Int) (ht : 0 < timeout) :
    ∃ o t, acceptWait interval timeout ready abortAt start start = .ok (o, t) ∧
      InTime interval timeout ready abortAt start o t :=
  acceptWait_spec start (by omega) (by omega) (by omega) (by omega)

theorem connectWait_spec {interval timeout : Int} {ready abortAt : Option Int} {start : Int} (now : Int)
    (hi : 0 ≤ interval)
    (h1 : start ≤ now) (h2 : now ≤ start + timeout) (h3 : now = start + timeout → isBy ready (now - 1) = false)
    (h4 : ∀ a, abortAt = some a → now ≤ max a start + max interval 1) :
    ∃ o t, connectWait interval timeout ready abortAt start now = .ok (o, t) ∧ start ≤ t ∧ t ≤ start + timeout ∧
      (o = .ready → isBy ready t = true) ∧
      (o = .timeout → isBy ready (start + timeout - 1) = false ∧ t = start + timeout) ∧
      (o = .abort → isBy abortAt t = true) ∧
      ∀ a, abortAt = some a → t ≤ max a start + max interval 1 := by
  induction hm : (timeout - (now - start)).toNat using Nat.strongRecOn generalizing now with
  | ind m ih =>
    rw [connectWait]
    by_cases ha : isBy abortAt now = true
    · rw [if_pos ha]
      exact ⟨.abort, now, rfl, by omega, by omega, by simp, by simp, fun _ => ha, h4⟩
    · rw [if_neg ha]
      by_cases ht : timeout ≤ now - start
      · rw [if_pos ht]
        have e : now = start + timeout := by omega
        refine ⟨.timeout, now, rfl, by omega, by omega, by simp, fun _ => ?_, by simp, h4⟩
        exact ⟨by rw [← e]; exact h3 e, e⟩
      · rw [if_neg ht]
        generalize hp : min (timeout - (now - start)) interval = p
        have hp1 : 0 ≤ p ∧ p ≤ timeout - (now - start) ∧ p ≤ interval := by omega
        have ha2 : ∀ a, abortAt = some a → now < a := by
          intro a e
          by_cases hlt : now < a
          · exact hlt
          · exact absurd (by rw [e, isBy_some]; omega) ha
        obtain ⟨b, t, hb, g1, g2, g3, g4⟩ := pollOnce_spec (ready := ready) (now := now) (p := p) (by omega)
        split
        · rename_i f hf; rw [hb] at hf; cases hf
        · rename_i t' hf
          rw [hb] at hf; cases hf
          refine ⟨.ready, _, rfl, by omega, by have := (g3 rfl).2; omega, fun _ => (g3 rfl).1, by simp, by simp, ?_⟩
          intro a e
          have := ha2 a e
          omega
        · rename_i t' hf
          rw [hb] at hf; cases hf
          have g5 := g4 rfl
          refine ih _ ?_ _ (by omega) (by omega) ?_ ?_ rfl
          · omega
          · intro e
            have h5 : t - 1 ≤ now + p := by omega
            have h6 := g5.2
            cases ready with
            | none => rfl
            | some r =>
              cases hx : isBy (some r) (t - 1)
              · rfl
              · rw [isBy_some] at hx
                have : isBy (some r) (now + p) = true := by rw [isBy_some]; omega
                rw [this] at h6; cases h6
          · intro a e
            have := ha2 a e
            omega

/-- The full statement for a sender thread that waits for its connection: it keeps to the timeout
and notices an abort, whatever the options.  It is false (`C76_connect_violated`).  With an
interval for abort checks that is not negative it holds. -/
theorem C76_connect_partial (interval timeout : Int) (ready abortAt : Option Int) (start : Int) (ht : 0 < timeout)
    (hi : 0 ≤ interval) :
    ∃ o t, connectWait interval timeout ready abortAt start start = .ok (o, t) ∧ start ≤ t ∧ t ≤ start + timeout ∧
      (o = .ready → isBy ready t = true) ∧
      (o = .timeout → isBy ready (start + timeout - 1) = false ∧ t = start + timeout) ∧
      (o = .abort → isBy abortAt t = true) ∧
      ∀ a, abortAt = some a → t ≤ max a start + max interval 1 :=
  connectWait_spec start hi (by omega) (by omega) (by omega) (by omega)

/-- A negative interval, which is documented to switch the abort checks off, switches the connect
timeout off too: the thread waits as long as the connection takes to be made or refused, and for
ever if that never happens. -/
theorem C76_connect_violated (interval timeout start : Int) (hi : interval < 0) (ht : 0 < timeout) :
    (∀ r, start < r → connectWait interval timeout (some r) none start start = .ok (.ready, r)) ∧
    connectWait interval timeout none none start start = .error .hang := by
  have hmin : min (timeout - (start - start)) interval < 0 := by omega
  constructor
  · intro r hr
    rw [connectWait, if_neg (by simp [isBy]), if_neg (by omega)]
    have : pollOnce (some r) start (min (timeout - (start - start)) interval) = .ok (true, r) := by
      simp only [pollOnce]; rw [if_neg (by omega), if_pos (.inl hmin)]
    split
    · rename_i f hf; rw [this] at hf; cases hf
    · rename_i t hf; rw [this] at hf; cases hf; rfl
    · rename_i t hf; rw [this] at hf; cases hf
  · rw [connectWait, if_neg (by simp [isBy]), if_neg (by omega)]
    have : pollOnce none start (min (timeout - (start - start)) interval) = .error .hang := by
      simp only [pollOnce]; rw [if_pos hmin]
    split
    · rename_i f hf; rw [this] at hf; cases hf; rfl
    · rename_i t hf; rw [this] at hf; cases hf
    · rename_i t hf; rw [this] at hf; cases hf

/-- **C76**: a receiver thread that waits for the others waits no longer than it is told to, and
notices an abort within an interval; it is never notified when it was not. -/
theorem C76_condition (interval rest now : Int) (notifyAt abortAt : Option Int) (h : 0 ≤ rest) :
    let res := condWait interval notifyAt abortAt rest now
    now ≤ res.2 ∧ res.2 ≤ now + rest ∧ (res.1 = true → isBy notifyAt res.2 = true) ∧
      ∀ a, abortAt = some a → 0 < interval → res.2 ≤ max a now + interval := by
  induction hm : rest.toNat using Nat.strongRecOn generalizing rest now with
  | ind m ih =>
    simp only []
    rw [condWait]
    by_cases h0 : rest ≤ 0
    · rw [if_pos h0]
      refine ⟨Int.le_refl _, by simp only []; omega, by simp, ?_⟩
      intro a _ hi; simp only []; omega
    · rw [if_neg h0]
      simp only []
      generalize hw : (if 0 < interval then min rest interval else rest) = w
      have hw1 : 1 ≤ w ∧ w ≤ rest ∧ (0 < interval → w ≤ interval) := by rw [← hw]; split <;> omega
      have rec1 := ih (rest - w).toNat (by omega) (rest - w) (now + w) (by omega) rfl
      simp only [] at rec1
      obtain ⟨r1, r2, r3, r4⟩ := rec1
      have goOn : isBy abortAt (now + w) = false → ∀ a, abortAt = some a → 0 < interval →
          (condWait interval notifyAt abortAt (rest - w) (now + w)).2 ≤ max a now + interval := by
        intro hb a e hi
        have h1 := r4 a e hi
        have h2 : ¬ a ≤ now + w := by
          intro hx
          rw [e] at hb
          rw [(isBy_some).2 hx] at hb; cases hb
        omega
      cases notifyAt with
      | none =>
        simp only []
        cases hb : isBy abortAt (now + w)
        · simp only [Bool.false_eq_true, if_false]
          exact ⟨by omega, by omega, r3, goOn hb⟩
        · simp only [if_true]
          refine ⟨by omega, by omega, by simp, ?_⟩
          intro a e hi; have := hw1.2.2 hi; omega
      | some r =>
        simp only []
        by_cases hr : r < now + w
        · rw [if_pos hr]
          refine ⟨by simp only []; omega, by simp only []; omega, fun _ => by rw [isBy_some]; simp only []; omega, ?_⟩
          intro a e hi; have := hw1.2.2 hi; simp only []; omega
        · rw [if_neg hr]
          cases hb : isBy abortAt (now + w)
          · simp only [Bool.false_eq_true, if_false]
            exact ⟨by omega, by omega, r3, goOn hb⟩
          · simp only [if_true]
            refine ⟨by omega, by omega, by simp, ?_⟩
            intro a e hi; have := hw1.2.2 hi; omega

/-- Bytes that a call has moved. -/
def IoCall.moved (c : IoCall) : Int :=
  match c.ret with
  | .bytes k => k
  | _ => 0

/-- Bytes that calls have moved, and how long they took. -/
def movedBy (calls : List IoCall) : Int := (calls.map IoCall.moved).sum
def timeOf (calls : List IoCall) : Int := (calls.map IoCall.dur).sum

/-- Calls as the system makes them: none takes longer than the timeout of the socket, if it has
one, and a call that moves bytes moves at least one. -/
def Sane (eff : Int) (calls : List IoCall) : Prop :=
  ∀ c ∈ calls, 0 ≤ c.dur ∧ (0 < eff → c.dur ≤ eff) ∧ 0 ≤ c.moved

theorem ioLoop_spec {interval timeoutMs : Int} {tryFull : Bool} {abortAt : Option Int} {numBytes eff : Int}
    (calls : List IoCall) (done t : Int) (hs : Sane eff calls) (hd : 0 ≤ done) (ht : 0 ≤ t)
    (h1 : 0 < timeoutMs → t < timeoutMs) (h2 : 0 < interval → t = 0 ∨ isBy abortAt t = false) :
    (∀ r t', ioLoop interval timeoutMs tryFull abortAt numBytes done t calls = some (r, t') →
      ∃ made rest, calls = made ++ rest ∧ t' = t + timeOf made ∧
        (r = done + movedBy made ∨ (r = -1 ∧ done + movedBy made = 0)) ∧
        (0 < timeoutMs → 0 < eff → t' < timeoutMs + eff) ∧
        (∀ a, abortAt = some a → 0 < interval → 0 < eff → t' ≤ max a 0 + eff)) ∧
    (ioLoop interval timeoutMs tryFull abortAt numBytes done t calls = none →
      (0 < timeoutMs → t + timeOf calls < timeoutMs) ∧
      (0 < interval → t + timeOf calls = 0 ∨ calls = [] ∨ isBy abortAt (t + timeOf calls) = false)) := by
  induction calls generalizing done t with
  | nil =>
    rw [ioLoop]
    by_cases hn : numBytes ≤ done
    · rw [if_pos hn]
      refine ⟨?_, by simp⟩
      intro r t' h
      cases h
      refine ⟨[], [], rfl, by simp [timeOf], .inl (by simp [movedBy]), ?_, ?_⟩
      · intro a b; have := h1 a; omega
      · intro a e b c
        rcases h2 b with h | h
        · omega
        · rw [e] at h
          by_cases hx : a ≤ t
          · rw [isBy_some.2 hx] at h; cases h
          · omega
    · rw [if_neg hn]
      refine ⟨by simp, fun _ => ⟨by simpa [timeOf] using h1, by simp⟩⟩
  | cons c rest ih =>
    rw [ioLoop]
    have hc := hs c (by simp)
    have hrest : Sane eff rest := fun x hx => hs x (by simp [hx])
    have hnot : ∀ a, abortAt = some a → 0 < interval → t < max a 0 + 1 := by
      intro a e b
      rcases h2 b with h | h
      · omega
      · rw [e] at h
        by_cases hx : a ≤ t
        · rw [isBy_some.2 hx] at h; cases h
        · omega
    have tm : timeOf [c] = c.dur := by simp [timeOf]
    have mv : movedBy [c] = c.moved := by simp [movedBy]
    have one : ∀ r, (r = done + c.moved ∨ (r = -1 ∧ done + c.moved = 0)) →
        ∃ made rest', c :: rest = made ++ rest' ∧ t + c.dur = t + timeOf made ∧
        (r = done + movedBy made ∨ (r = -1 ∧ done + movedBy made = 0)) ∧
        (0 < timeoutMs → 0 < eff → t + c.dur < timeoutMs + eff) ∧
        (∀ a, abortAt = some a → 0 < interval → 0 < eff → t + c.dur ≤ max a 0 + eff) := by
      intro r hr
      refine ⟨[c], rest, rfl, by rw [tm], by rw [mv]; exact hr, ?_, ?_⟩
      · intro a b; have := h1 a; have := hc.2.1 b; omega
      · intro a e b d; have := hnot a e b; have := hc.2.1 d; omega
    by_cases hn : numBytes ≤ done
    · rw [if_pos hn]
      refine ⟨?_, by simp⟩
      intro r t' h
      cases h
      refine ⟨[], c :: rest, rfl, by simp [timeOf], .inl (by simp [movedBy]), ?_, ?_⟩
      · intro a b; have := h1 a; omega
      · intro a e b d; have := hnot a e b; omega
    · rw [if_neg hn]
      simp only []
      have goOn : ∀ d, d = done + c.moved → 0 ≤ d →
          ((∀ r t', (if 0 < interval ∧ isBy abortAt (t + c.dur) = true then some (if 0 < d then d else -1, t + c.dur)
              else if 0 < timeoutMs ∧ timeoutMs ≤ t + c.dur then some (if 0 < d then d else -1, t + c.dur)
              else ioLoop interval timeoutMs tryFull abortAt numBytes d (t + c.dur) rest) = some (r, t') →
            ∃ made rest', c :: rest = made ++ rest' ∧ t' = t + timeOf made ∧
              (r = done + movedBy made ∨ (r = -1 ∧ done + movedBy made = 0)) ∧
              (0 < timeoutMs → 0 < eff → t' < timeoutMs + eff) ∧
              (∀ a, abortAt = some a → 0 < interval → 0 < eff → t' ≤ max a 0 + eff)) ∧
          ((if 0 < interval ∧ isBy abortAt (t + c.dur) = true then some (if 0 < d then d else -1, t + c.dur)
              else if 0 < timeoutMs ∧ timeoutMs ≤ t + c.dur then some (if 0 < d then d else -1, t + c.dur)
              else ioLoop interval timeoutMs tryFull abortAt numBytes d (t + c.dur) rest) = none →
            (0 < timeoutMs → t + timeOf (c :: rest) < timeoutMs) ∧
            (0 < interval → t + timeOf (c :: rest) = 0 ∨ c :: rest = [] ∨
              isBy abortAt (t + timeOf (c :: rest)) = false))) := by
        intro d hd1 hd0
        have hval : (if 0 < d then d else -1) = done + c.moved ∨
            ((if 0 < d then d else -1) = -1 ∧ done + c.moved = 0) := by split <;> omega
        have tc : timeOf (c :: rest) = c.dur + timeOf rest := by simp [timeOf]
        by_cases ha : 0 < interval ∧ isBy abortAt (t + c.dur) = true
        · rw [if_pos ha]
          refine ⟨?_, by simp⟩
          intro r t' h; cases h
          exact one _ hval
        · rw [if_neg ha]
          by_cases hto : 0 < timeoutMs ∧ timeoutMs ≤ t + c.dur
          · rw [if_pos hto]
            refine ⟨?_, by simp⟩
            intro r t' h; cases h
            exact one _ hval
          · rw [if_neg hto]
            have hna : 0 < interval → isBy abortAt (t + c.dur) = false := by
              intro hi
              cases hx : isBy abortAt (t + c.dur)
              · rfl
              · exact absurd ⟨hi, hx⟩ ha
            obtain ⟨i1, i2⟩ := ih d (t + c.dur) hrest hd0 (by omega) (by omega) fun hi => .inr (hna hi)
            constructor
            · intro r t' h
              obtain ⟨made, rest', e1, e2, e3, e4, e5⟩ := i1 r t' h
              refine ⟨c :: made, rest', by rw [e1]; rfl, ?_, ?_, e4, e5⟩
              · rw [e2]; simp [timeOf]; omega
              · have : movedBy (c :: made) = c.moved + movedBy made := by simp [movedBy]
                rw [this]; omega
            · intro h
              obtain ⟨j1, j2⟩ := i2 h
              rw [tc, ← Int.add_assoc]
              refine ⟨j1, fun hi => ?_⟩
              rcases j2 hi with j | j | j
              · exact .inl j
              · right; right; rw [j]; simpa [timeOf] using hna hi
              · exact .inr (.inr j)
      cases hret : c.ret with
      | fail =>
        have hm : c.moved = 0 := by simp [IoCall.moved, hret]
        simp only []
        refine ⟨?_, by simp⟩
        intro r t' h; cases h
        exact one _ (by rw [hm]; split <;> omega)
      | eof =>
        have hm : c.moved = 0 := by simp [IoCall.moved, hret]
        simp only []
        refine ⟨?_, by simp⟩
        intro r t' h; cases h
        exact one _ (by rw [hm]; omega)
      | again =>
        have hm : c.moved = 0 := by simp [IoCall.moved, hret]
        exact goOn done (by omega) hd
      | bytes k =>
        have hm : c.moved = k := by simp [IoCall.moved, hret]
        simp only []
        cases tryFull with
        | false =>
          simp only [Bool.false_eq_true, if_false]
          refine ⟨?_, by simp⟩
          intro r t' h; cases h
          exact one _ (by rw [hm]; omega)
        | true =>
          simp only [if_true]
          exact goOn (done + k) (by rw [hm]) (by have := hc.2.2; omega)

/-- **C76**: reading from or writing to a connection.  What is returned is the number of bytes
that were moved, or -1 if there were none (so no byte is read and forgotten); with timeouts set it
returns less than one interval between checks for an abort, and less than one network timeout, after
its own timeout, and no later than that after an abort; while it goes on neither has happened. -/
theorem C76_io (interval timeoutMs networkTimeout : Int) (tryFull : Bool) (abortAt : Option Int) (numBytes : Int)
    (calls : List IoCall) (hs : Sane (effTimeout interval networkTimeout) calls) :
    (∀ r t', ioLoop interval timeoutMs tryFull abortAt numBytes 0 0 calls = some (r, t') →
      ∃ made rest, calls = made ++ rest ∧ t' = timeOf made ∧
        (r = movedBy made ∨ (r = -1 ∧ movedBy made = 0)) ∧
        (0 < timeoutMs → 0 < interval → t' < timeoutMs + interval) ∧
        (0 < timeoutMs → 0 < networkTimeout → t' < timeoutMs + networkTimeout) ∧
        (∀ a, abortAt = some a → 0 < interval → t' ≤ max a 0 + interval ∧
          (0 < networkTimeout → t' ≤ max a 0 + networkTimeout))) ∧
    (ioLoop interval timeoutMs tryFull abortAt numBytes 0 0 calls = none →
      (0 < timeoutMs → timeOf calls < timeoutMs) ∧
      (0 < interval → timeOf calls = 0 ∨ isBy abortAt (timeOf calls) = false)) := by
  obtain ⟨h1, h2⟩ := ioLoop_spec (interval := interval) (timeoutMs := timeoutMs) (tryFull := tryFull)
    (abortAt := abortAt) (numBytes := numBytes) calls 0 0 hs (by omega) (by omega) (by omega) (by omega)
  constructor
  · intro r t' h
    obtain ⟨made, rest, e1, e2, e3, e4, e5⟩ := h1 r t' h
    have k1 : 0 < interval → 0 < effTimeout interval networkTimeout ∧ effTimeout interval networkTimeout ≤ interval := by
      intro hi; unfold effTimeout; split
      · omega
      · split <;> omega
    have k2 : 0 < networkTimeout → 0 < effTimeout interval networkTimeout ∧ effTimeout interval networkTimeout ≤ networkTimeout := by
      intro hi; unfold effTimeout; split
      · omega
      · split <;> omega
    refine ⟨made, rest, e1, by omega, by simpa using e3, fun ht hi => ?_, fun ht hi => ?_, ?_⟩
    · have := k1 hi; have := e4 ht this.1; omega
    · have := k2 hi; have := e4 ht this.1; omega
    · intro a e hi
      have h3 := k1 hi
      have h4 := e5 a e hi (by omega)
      exact ⟨by omega, fun hn => by have := k2 hn; omega⟩
  · intro h
    obtain ⟨j1, j2⟩ := h2 h
    simp only [Int.zero_add] at j1 j2
    refine ⟨j1, fun hi => ?_⟩
    rcases j2 hi with j | j | j
    · exact .inl j
    · left; rw [j]; rfl
    · exact .inr j

/-- The defaults: a connection that takes 650 ms; one that never comes; an abort after 350 ms. -/
example : acceptWait 200 2000 (some 650) none 0 0 = .ok (.ready, 650) := by
  rw [acceptWait]; simp [pollOnce, isBy, Int.min_def, Int.max_def]; rw [acceptWait]; simp [pollOnce, isBy, Int.min_def, Int.max_def]; rw [acceptWait]; simp [pollOnce, isBy, Int.min_def, Int.max_def]; rw [acceptWait]; simp [pollOnce, isBy, Int.min_def, Int.max_def]
example : acceptWait 200 500 none none 0 0 = .ok (.timeout, 500) := by
  rw [acceptWait]; simp [pollOnce, isBy, Int.min_def, Int.max_def]; rw [acceptWait]; simp [pollOnce, isBy, Int.min_def, Int.max_def]; rw [acceptWait]; simp [pollOnce, isBy, Int.min_def, Int.max_def]; rw [acceptWait]; simp [pollOnce, isBy, Int.min_def, Int.max_def]
example : acceptWait 200 2000 (some 650) (some 350) 0 0 = .ok (.abort, 400) := by
  rw [acceptWait]; simp [pollOnce, isBy, Int.min_def, Int.max_def]; rw [acceptWait]; simp [pollOnce, isBy, Int.min_def, Int.max_def]; rw [acceptWait]; simp [pollOnce, isBy, Int.min_def, Int.max_def]
example : connectWait 200 1000 (some 5000) none 0 0 = .ok (.timeout, 1000) := by
  rw [connectWait]; simp [pollOnce, isBy, Int.min_def, Int.max_def]; rw [connectWait]; simp [pollOnce, isBy, Int.min_def, Int.max_def]; rw [connectWait]; simp [pollOnce, isBy, Int.min_def, Int.max_def]; rw [connectWait]; simp [pollOnce, isBy, Int.min_def, Int.max_def]; rw [connectWait]; simp [pollOnce, isBy, Int.min_def, Int.max_def]; rw [connectWait]; simp [pollOnce, isBy, Int.min_def, Int.max_def]
example : connectWait (-1) 1000 (some 5000) none 0 0 = .ok (.ready, 5000) := by
  rw [connectWait]; simp [pollOnce, isBy, Int.min_def, Int.max_def]
example : condWait 200 (some 650) none 1000 0 = (true, 650) := by
  rw [condWait]; simp [isBy, Int.min_def]; rw [condWait]; simp [isBy, Int.min_def]; rw [condWait]; simp [isBy, Int.min_def]; rw [condWait]; simp [Int.min_def, Int.max_def]
/-- A read of 100 bytes from a peer that sends 40 and then falls silent. -/
example : ioLoop 200 500 true none 100 0 0 [⟨.bytes 40, 30⟩, ⟨.again, 200⟩, ⟨.again, 200⟩, ⟨.again, 200⟩] =
    some (40, 630) := by
  simp [ioLoop, isBy]
example : Sane (effTimeout 200 5000) [⟨.bytes 40, 30⟩, ⟨.again, 200⟩, ⟨.again, 200⟩, ⟨.again, 200⟩] := by
  intro c hc
  simp only [List.mem_cons, List.not_mem_nil, or_false] at hc
  rcases hc with rfl | rfl | rfl | rfl <;> decide

end Wdt
