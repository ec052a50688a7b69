import Verif.Props.BackChannel
import Verif.Lemmas.HostileStream
/-
C107: whatever a receiver sends back, a sender thread that reads it stays inside its buffers, ends and does not crash.
-/
namespace Wdt

/-- The bytes after an ERR command announce a length that is negative as an `int16_t`. -/
def NegLen (inp : Bytes) : Prop := ∃ lo hi post, inp = lo :: hi :: post ∧ 128 ≤ hi.toNat

/-- The 13 bytes after an ABORT command hold a negative version or a negative number of files. -/
def NegAbort (inp : Bytes) : Prop :=
  ∃ a0 a1 a2 a3 e b0 b1 b2 b3 b4 b5 b6 b7 post, inp = a0 :: a1 :: a2 :: a3 :: e :: b0 :: b1 :: b2 :: b3 :: b4 :: b5 :: b6 :: b7 :: post ∧
    (128 ≤ a3.toNat ∨ 128 ≤ b7.toNat)

/-- Somewhere in the stream there is such a command. -/
def BadReply (inp : Bytes) : Prop :=
  ∃ pre post, (inp = pre ++ ERR_CMD :: post ∧ NegLen post) ∨ (inp = pre ++ ABORT_CMD :: post ∧ NegAbort post)

theorem readSome_append (inp : Bytes) (n av : Nat) : inp = (readSome inp n av).1 ++ (readSome inp n av).2 := by
  unfold readSome; rw [List.take_append_drop]

theorem readSome_length_le (inp : Bytes) (n av : Nat) : (readSome inp n av).1.length ≤ n := by
  unfold readSome; rw [List.length_take]; omega

theorem list_len2 {l : Bytes} (h : l.length = 2) : ∃ a b, l = [a, b] := by
  rcases l with _ | ⟨a, _ | ⟨b, _ | ⟨c, l⟩⟩⟩ <;> simp_all

theorem list_len13 {l : Bytes} (h : l.length = 13) :
    ∃ a0 a1 a2 a3 e b0 b1 b2 b3 b4 b5 b6 b7, l = [a0, a1, a2, a3, e, b0, b1, b2, b3, b4, b5, b6, b7] := by
  rcases l with _ | ⟨a0, _ | ⟨a1, _ | ⟨a2, _ | ⟨a3, _ | ⟨e, _ | ⟨b0, _ | ⟨b1, _ | ⟨b2, _ | ⟨b3, _ | ⟨b4, _ | ⟨b5, _ | ⟨b6, _ | ⟨b7, _ | ⟨c, l⟩⟩⟩⟩⟩⟩⟩⟩⟩⟩⟩⟩⟩⟩ <;>
    simp_all

theorem hearErr_cases (ver : Int) (e : HearEnv) (inp : Bytes) :
    (hearErr ver e inp = .error .ub ∧ NegLen inp) ∨
    ∃ ev hs w rest, hearErr ver e inp = .ok (ev, hs, rest) ∧ inp = w ++ rest ∧
      (ev = .errReadFailed ∨ ev = .errMalformed ∨ ev = .errProcessed) := by
  unfold hearErr
  simp only
  have ha := readSome_append inp 2 e.a1
  generalize readSome inp 2 e.a1 = r at ha
  by_cases h : r.1.length ≠ 2
  · rw [if_pos h]; exact .inr ⟨_, _, r.1, _, rfl, ha, .inl rfl⟩
  rw [if_neg h]
  obtain ⟨a, b, hab⟩ := list_len2 (Classical.not_not.1 h)
  have hl : loadInt16 r.1 0 = .ok (if a.toNat + 256 * b.toNat < 32768 then ((a.toNat + 256 * b.toNat : Nat) : Int)
      else ((a.toNat + 256 * b.toNat : Nat) : Int) - 65536) := by
    rw [hab]; rfl
  have ha1 := a.toNat_lt
  have hb1 := b.toNat_lt
  rw [hl]
  simp only
  by_cases hneg : a.toNat + 256 * b.toNat < 32768
  · rw [if_pos hneg, if_neg (by omega)]
    generalize a.toNat + 256 * b.toNat = n at hneg
    have ha2 := readSome_append r.2 (Int.toNat (n : Int)) e.a2
    generalize readSome r.2 (Int.toNat (n : Int)) e.a2 = r2 at ha2
    have hap : inp = (r.1 ++ r2.1) ++ r2.2 := by rw [List.append_assoc, ← ha2]; exact ha
    by_cases h2 : (r2.1.length : Int) ≠ n
    · rw [if_pos h2]; exact .inr ⟨_, _, _, _, rfl, hap, .inl rfl⟩
    rw [if_neg h2]
    obtain ⟨x, o, e5, _, _⟩ := C07_decodeCheckpoints_total ver r2.1 0 n (Int.le_refl _) (by omega) (by omega)
    rw [e5]
    rcases x with _ | cs
    · exact .inr ⟨_, _, _, _, rfl, hap, .inr (.inl rfl)⟩
    · exact .inr ⟨_, _, _, _, rfl, hap, .inr (.inr rfl)⟩
  · rw [if_neg hneg, if_pos (by omega)]
    refine .inl ⟨rfl, a, b, r.2, ?_, by omega⟩
    rw [ha, hab]; rfl

theorem hearAbort_cases (ver : Int) (e : HearEnv) (hm : 13 ≤ e.mem.length) (inp : Bytes) :
    (hearAbort ver e inp = .error .ub ∧ NegAbort inp) ∨
    ∃ ev hs w rest, hearAbort ver e inp = .ok (ev, hs, rest) ∧ inp = w ++ rest ∧
      (ev = .abortReadFailed ∨ ∃ c v, ev = .abortRead c v) := by
  have hk : kAbortLength = 13 := rfl
  unfold hearAbort
  simp only
  have ha := readSome_append inp kAbortLength.toNat e.a1
  generalize readSome inp kAbortLength.toNat e.a1 = r at ha
  by_cases h : (r.1.length : Int) ≠ kAbortLength
  · rw [if_pos h]; exact .inr ⟨_, _, r.1, _, rfl, ha, .inl rfl⟩
  rw [if_neg h]
  have h13 : r.1.length = 13 := by omega
  have hd : ∃ x o, decodeAbort (r.1 ++ e.mem.drop r.1.length) 0 e.mem.length = .ok (x, o) ∧ (x = none → NegAbort inp) := by
    have hl : (r.1 ++ e.mem.drop r.1.length).length = e.mem.length := by
      rw [List.length_append, List.length_drop]; omega
    unfold decodeAbort
    rw [if_neg (by omega), makeByteRange_ok _ _ _ (by omega) (by omega) (by omega)]
    conv => enter [1, x, 1, o, 1, 1]; rw [← hl, seg_all]
    obtain ⟨a0, a1, a2, a3, c, b0, b1, b2, b3, b4, b5, b6, b7, hr⟩ := list_len13 h13
    rw [hr] at ha ⊢
    have t0 := a0.toNat_lt
    have t1 := a1.toNat_lt
    have t2 := a2.toNat_lt
    have t3 := a3.toNat_lt
    have s0 := b0.toNat_lt
    have s1 := b1.toNat_lt
    have s2 := b2.toNat_lt
    have s3 := b3.toNat_lt
    have s4 := b4.toNat_lt
    have s5 := b5.toNat_lt
    have s6 := b6.toNat_lt
    have s7 := b7.toNat_lt
    generalize e.mem.drop _ = y
    have neg : (128 ≤ a3.toNat ∨ 128 ≤ b7.toNat) → NegAbort inp := fun g =>
      ⟨a0, a1, a2, a3, c, b0, b1, b2, b3, b4, b5, b6, b7, r.2, ha, g⟩
    simp only [List.cons_append, List.nil_append]
    by_cases g1 : 2 * leNat [a0, a1, a2, a3] ≥ 256 ^ 4
    · have e1 : decodeIntFixed 4 (a0 :: a1 :: a2 :: a3 :: c :: b0 :: b1 :: b2 :: b3 :: b4 :: b5 :: b6 :: b7 :: y) =
          (none, c :: b0 :: b1 :: b2 :: b3 :: b4 :: b5 :: b6 :: b7 :: y) := by
        unfold decodeIntFixed
        rw [if_neg (by simp only [List.length_cons]; omega)]
        simp only [List.take_succ_cons, List.take_zero, List.drop_succ_cons, List.drop_zero]
        rw [if_pos g1]
      rw [e1]
      refine ⟨_, _, rfl, fun _ => neg (.inl ?_)⟩
      simp only [leNat] at g1
      omega
    · have e1 : decodeIntFixed 4 (a0 :: a1 :: a2 :: a3 :: c :: b0 :: b1 :: b2 :: b3 :: b4 :: b5 :: b6 :: b7 :: y) =
          (some (leNat [a0, a1, a2, a3] : Int), c :: b0 :: b1 :: b2 :: b3 :: b4 :: b5 :: b6 :: b7 :: y) := by
        unfold decodeIntFixed
        rw [if_neg (by simp only [List.length_cons]; omega)]
        simp only [List.take_succ_cons, List.take_zero, List.drop_succ_cons, List.drop_zero]
        rw [if_neg g1]
      rw [e1]
      simp only
      by_cases g2 : 2 * leNat [b0, b1, b2, b3, b4, b5, b6, b7] ≥ 256 ^ 8
      · have e2 : decodeIntFixed 8 (b0 :: b1 :: b2 :: b3 :: b4 :: b5 :: b6 :: b7 :: y) = (none, y) := by
          unfold decodeIntFixed
          rw [if_neg (by simp only [List.length_cons]; omega)]
          simp only [List.take_succ_cons, List.take_zero, List.drop_succ_cons, List.drop_zero]
          rw [if_pos g2]
        rw [e2]
        refine ⟨_, _, rfl, fun _ => neg (.inr ?_)⟩
        simp only [leNat] at g2
        omega
      · have e2 : decodeIntFixed 8 (b0 :: b1 :: b2 :: b3 :: b4 :: b5 :: b6 :: b7 :: y) =
            (some (leNat [b0, b1, b2, b3, b4, b5, b6, b7] : Int), y) := by
          unfold decodeIntFixed
          rw [if_neg (by simp only [List.length_cons]; omega)]
          simp only [List.take_succ_cons, List.take_zero, List.drop_succ_cons, List.drop_zero]
          rw [if_neg g2]
        rw [e2]
        exact ⟨_, _, rfl, fun h => by cases h⟩
  obtain ⟨x, o, hx, hn⟩ := hd
  rw [hx]
  rcases x with _ | ⟨v, code, files⟩
  · exact .inl ⟨rfl, hn rfl⟩
  · exact .inr ⟨_, _, r.1, _, rfl, ha, .inr ⟨_, _, rfl⟩⟩

theorem readSpurious_cases (ver port : Int) (av : Nat) (inp : Bytes) :
    ∃ x w rest, readSpurious ver port av inp = .ok (x, rest) ∧ inp = w ++ rest := by
  unfold readSpurious
  simp only
  have hlen : 1 ≤ (getMaxLocalCheckpointLength ver).toNat := by
    unfold getMaxLocalCheckpointLength; split <;> split <;> decide
  generalize (getMaxLocalCheckpointLength ver).toNat = len at hlen
  have ha := readSome_append inp (len - 1) av
  generalize readSome inp (len - 1) av = r at ha
  by_cases h : r.1.length ≠ len - 1
  · rw [if_pos h]; exact ⟨_, r.1, _, rfl, ha⟩
  rw [if_neg h]
  obtain ⟨x, o, e5, _, _⟩ := C07_decodeCheckpoints_total ver (LOCAL_CHECKPOINT_CMD :: r.1) 0 len (Int.le_refl _) (by omega)
    (by rw [List.length_cons]; omega)
  rw [e5]
  rcases x with _ | _ | ⟨c, _ | ⟨c2, cs⟩⟩
  · exact ⟨_, r.1, _, rfl, ha⟩
  · exact ⟨_, r.1, _, rfl, ha⟩
  · simp only
    split
    · exact ⟨_, r.1, _, rfl, ha⟩
    · exact ⟨_, r.1, _, rfl, ha⟩
  · exact ⟨_, r.1, _, rfl, ha⟩

/-- The states whose functions read from the connection. -/
def Reads (st : SState) : Prop :=
  st = .readReceiverCmd ∨ st = .processErrCmd ∨ st = .processAbortCmd ∨ st = .processWaitCmd ∨ st = .processDoneCmd ∨ st = .checkForAbort

/-- What one state function reads, and where it leads. -/
structure ReplyStep (t t' : TState) (inp rest : Bytes) (hs : List Heard) : Prop where
  /-- what is left is what was there less what was read -/
  part : ∃ w, inp = w ++ rest ∧ (t'.state = .processErrCmd → w = [ERR_CMD]) ∧ (t'.state = .processAbortCmd → w = [ABORT_CMD]) ∧
    (t'.state = .processDoneCmd → w = [DONE_CMD] ∧ hs = [.done]) ∧ (t.state = .readReceiverCmd → w ≠ [] ∨ ¬ Reads t'.state)
  /-- command states lead back or out -/
  out : t'.state = .readReceiverCmd → t.state = .readReceiverCmd ∨ t.state = .processWaitCmd
  cmd : t'.state = .processWaitCmd ∨ t'.state = .processErrCmd ∨ t'.state = .processDoneCmd → t.state = .readReceiverCmd
  abt : t'.state = .processAbortCmd → t.state = .readReceiverCmd ∨ t.state = .checkForAbort
  noCheck : t'.state ≠ .checkForAbort
  fin : t'.state = .finished → t'.localErr = eOK → t.state = .processDoneCmd

/-- What one state function reads is harmless, or one of two commands; whatever arrives, and however much of it. -/
theorem hearStep_cases (ver port mr : Int) (e : HearEnv) (hm : 13 ≤ e.mem.length) (t : TState) (inp : Bytes) :
    (hearStep ver port e t.state inp = none ∧ ¬ Reads t.state) ∨
    (hearStep ver port e t.state inp = some (.error .ub) ∧
      ((t.state = .processErrCmd ∧ NegLen inp) ∨ (t.state = .processAbortCmd ∧ NegAbort inp))) ∨
    ∃ ev hs rest, hearStep ver port e t.state inp = some (.ok (ev, hs, rest)) ∧
      (tStep mr t ev = none → e.code = eOK ∧ (readSome inp 1 e.a1).1 = []) ∧
      ∀ r, tStep mr t ev = some r → ∃ t', r = .ok t' ∧ ReplyStep t t' inp rest hs := by
  obtain ⟨st, np, le, re, hso, ts⟩ := t
  dsimp only
  cases st with
  | connect => left; exact ⟨rfl, by simp [Reads]⟩
  | readLocalCheckpoint => left; exact ⟨rfl, by simp [Reads]⟩
  | sendSettings => left; exact ⟨rfl, by simp [Reads]⟩
  | sendBlocks => left; exact ⟨rfl, by simp [Reads]⟩
  | sendDoneCmd => left; exact ⟨rfl, by simp [Reads]⟩
  | sendSizeCmd => left; exact ⟨rfl, by simp [Reads]⟩
  | readFileChunks => left; exact ⟨rfl, by simp [Reads]⟩
  | processVersionMismatch => left; exact ⟨rfl, by simp [Reads]⟩
  | finished => left; exact ⟨rfl, by simp [Reads]⟩
  | processWaitCmd =>
    right; right
    refine ⟨_, _, _, rfl, by simp [tStep], fun r hr => ?_⟩
    simp only [tStep, Option.some.injEq] at hr
    subst hr
    exact ⟨_, rfl, ⟨⟨[], by simp⟩, by simp, by simp, by simp, by simp, by simp⟩⟩
  | processDoneCmd =>
    right; right
    refine ⟨_, _, _, rfl, by simp only [tStep]; split <;> simp, fun r hr => ?_⟩
    simp only [tStep] at hr
    split at hr <;> simp only [Option.some.injEq] at hr <;> subst hr <;>
      exact ⟨_, rfl, ⟨⟨[], by simp⟩, by simp, by simp, by simp, by simp, by simp⟩⟩
  | checkForAbort =>
    right; right
    refine ⟨_, _, _, rfl, by simp [tStep, hearCheckAbort], fun r hr => ?_⟩
    have ha := readSome_append inp 1 e.a1
    simp only [tStep, hearCheckAbort, Option.some.injEq] at hr
    subst hr
    refine ⟨_, rfl, ⟨⟨(readSome inp 1 e.a1).1, ha, ?_, ?_, ?_, ?_⟩, ?_, ?_, ?_, ?_, ?_⟩⟩ <;>
      by_cases g : (readSome inp 1 e.a1).1 = [ABORT_CMD] <;> simp [g]
  | processErrCmd =>
    right
    rcases hearErr_cases ver e inp with ⟨h, hn⟩ | ⟨ev, hs, w, rest, h, hap, hev⟩
    · left; exact ⟨by simp only [hearStep]; rw [h], .inl ⟨rfl, hn⟩⟩
    · right
      refine ⟨ev, hs, rest, by simp only [hearStep]; rw [h], ?_, fun r hr => ?_⟩
      · rcases hev with rfl | rfl | rfl <;> simp [tStep]
      · rcases hev with rfl | rfl | rfl <;> simp only [tStep, Option.some.injEq] at hr <;> subst hr <;>
          exact ⟨_, rfl, ⟨⟨w, by simp [hap]⟩, by simp, by simp, by simp, by simp, by simp [ePROTOCOL_ERROR, eOK]⟩⟩
  | processAbortCmd =>
    right
    rcases hearAbort_cases ver e hm inp with ⟨h, hn⟩ | ⟨ev, hs, w, rest, h, hap, hev⟩
    · left; exact ⟨by simp only [hearStep]; rw [h], .inr ⟨rfl, hn⟩⟩
    · right
      refine ⟨ev, hs, rest, by simp only [hearStep]; rw [h], ?_, fun r hr => ?_⟩
      · rcases hev with rfl | ⟨c, v, rfl⟩
        · simp [tStep]
        · simp only [tStep]; split
          · split <;> simp
          · simp
      · rcases hev with rfl | ⟨c, v, rfl⟩
        · simp only [tStep, Option.some.injEq] at hr
          subst hr
          exact ⟨_, rfl, ⟨⟨w, by simp [hap]⟩, by simp, by simp, by simp, by simp, by simp [eABORT, eOK]⟩⟩
        · simp only [tStep] at hr
          split at hr
          · split at hr <;> simp only [Option.some.injEq] at hr <;> subst hr <;>
              exact ⟨_, rfl, ⟨⟨w, by simp [hap]⟩, by simp, by simp, by simp, by simp, by simp [eABORT, eOK]⟩⟩
          · simp only [Option.some.injEq] at hr
            subst hr
            exact ⟨_, rfl, ⟨⟨w, by simp [hap]⟩, by simp, by simp, by simp, by simp, by simp [eABORT, eOK]⟩⟩
  | readReceiverCmd =>
    right; right
    have ha := readSome_append inp 1 e.a1
    have hl := readSome_length_le inp 1 e.a1
    rcases hr : readSome inp 1 e.a1 with ⟨_ | ⟨c, l⟩, rest⟩
    · rw [hr] at ha
      refine ⟨.cmdError e.code, [], rest, by simp [hearStep, hearCmd, hr], ?_, fun r h => ?_⟩
      · simp only [tStep]; split
        · intro _; exact ⟨by assumption, trivial⟩
        · simp
      · simp only [tStep] at h
        split at h
        · simp at h
        · simp only [Option.some.injEq] at h
          subst h
          exact ⟨_, rfl, ⟨⟨[], by simpa [Reads] using ha⟩, by simp, by simp, by simp, by simp, by simp⟩⟩
    · rw [hr] at ha hl
      have hl0 : l = [] := by
        cases l with
        | nil => rfl
        | cons _ _ => simp at hl
      subst hl0
      dsimp only at ha
      by_cases c1 : c = ERR_CMD
      · refine ⟨.cmdErr, [], rest, by simp [hearStep, hearCmd, hr, c1], by simp [tStep], fun r h => ?_⟩
        simp only [tStep, Option.some.injEq] at h
        subst h
        exact ⟨_, rfl, ⟨⟨[c], by simp [ha, c1]⟩, by simp, by simp, by simp, by simp, by simp⟩⟩
      by_cases c2 : c = WAIT_CMD
      · refine ⟨.cmdWait, [.wait], rest, by subst c2; simp [hearStep, hearCmd, hr, c1], by simp [tStep], fun r h => ?_⟩
        simp only [tStep, Option.some.injEq] at h
        subst h
        exact ⟨_, rfl, ⟨⟨[c], by simp [ha]⟩, by simp, by simp, by simp, by simp, by simp⟩⟩
      by_cases c3 : c = DONE_CMD
      · refine ⟨.cmdDone, [.done], rest, by simp only [hearStep, hearCmd, hr]; rw [if_neg c1, if_neg c2, if_pos c3], by simp [tStep], fun r h => ?_⟩
        simp only [tStep, Option.some.injEq] at h
        subst h
        exact ⟨_, rfl, ⟨⟨[c], by simp [ha, c3]⟩, by simp, by simp, by simp, by simp, by simp⟩⟩
      by_cases c4 : c = ABORT_CMD
      · refine ⟨.cmdAbort, [], rest, by simp only [hearStep, hearCmd, hr]; rw [if_neg c1, if_neg c2, if_neg c3, if_pos c4], by simp [tStep], fun r h => ?_⟩
        simp only [tStep, Option.some.injEq] at h
        subst h
        exact ⟨_, rfl, ⟨⟨[c], by simp [ha, c4]⟩, by simp, by simp, by simp, by simp, by simp⟩⟩
      by_cases c5 : c = LOCAL_CHECKPOINT_CMD
      · obtain ⟨x, w, rest', hx, hap⟩ := readSpurious_cases ver port e.a2 rest
        have hap' : inp = (c :: w) ++ rest' := by rw [ha, hap]; rfl
        refine ⟨.cmdCheckpoint x, [], rest', ?_, ?_, fun r h => ?_⟩
        · simp only [hearStep, hearCmd, hr]; rw [if_neg c1, if_neg c2, if_neg c3, if_neg c4, if_pos c5, hx]
        · rcases x with _ | _ | x <;> simp [tStep]
        · rcases x with _ | _ | x <;> simp only [tStep, Option.some.injEq] at h <;> subst h <;>
            exact ⟨_, rfl, ⟨⟨c :: w, by simpa using hap'⟩, by simp, by simp, by simp, by simp, by simp [ePROTOCOL_ERROR, eOK]⟩⟩
      by_cases c6 : c = HEART_BEAT_CMD
      · refine ⟨.cmdHeartBeat, [], rest, ?_, by simp [tStep], fun r h => ?_⟩
        · simp only [hearStep, hearCmd, hr]; rw [if_neg c1, if_neg c2, if_neg c3, if_neg c4, if_neg c5, if_pos c6]
        simp only [tStep, Option.some.injEq] at h
        subst h
        exact ⟨_, rfl, ⟨⟨[c], by simp [ha]⟩, by simp, by simp, by simp, by simp, by simp⟩⟩
      · refine ⟨.cmdUnknown, [], rest, ?_, by simp [tStep], fun r h => ?_⟩
        · simp only [hearStep, hearCmd, hr]; rw [if_neg c1, if_neg c2, if_neg c3, if_neg c4, if_neg c5, if_neg c6]
        simp only [tStep, Option.some.injEq] at h
        subst h
        exact ⟨_, rfl, ⟨⟨[c], by simp [ha]⟩, by simp, by simp, by simp, by simp, by simp [ePROTOCOL_ERROR, eOK]⟩⟩

/-- Sender threads do not crash on the answers of a receiver, whatever bytes these are, except for two
commands with a negative number: a list of checkpoints of negative length, and an abort with a negative version or
number of files.  For every state of the thread that reads, except in the middle of these commands. -/
theorem C107_answers_partial (ver port mr : Int) (eos : ErrCode) (mem : Bytes) (hm : 13 ≤ mem.length) (t : TState)
    (ht : t.state ≠ .processErrCmd ∧ t.state ≠ .processAbortCmd) (fuel : Nat) (inp : Bytes) (f : Fault)
    (h : hearRun ver port mr eos mem fuel t inp = .error f) : f = .ub ∧ BadReply inp := by
  have gen : ∀ (fuel : Nat) (t : TState) (inp : Bytes), hearRun ver port mr eos mem fuel t inp = .error f →
      f = .ub ∧ (BadReply inp ∨ (t.state = .processErrCmd ∧ NegLen inp) ∨ (t.state = .processAbortCmd ∧ NegAbort inp)) := by
    intro fuel
    induction fuel with
    | zero => intro t inp h; simp [hearRun] at h
    | succ fuel ih =>
      intro t inp h
      unfold hearRun at h
      by_cases g : t.state = .readReceiverCmd ∧ inp = []
      · rw [if_pos g] at h; simp at h
      rw [if_neg g] at h
      rcases hearStep_cases ver port mr { a1 := inp.length, a2 := inp.length, eos, mem } hm t inp with
        ⟨h1, _⟩ | ⟨h1, h2⟩ | ⟨ev, hs, rest, h1, _, h2⟩
      · rw [h1] at h; simp at h
      · rw [h1] at h
        simp only [Except.error.injEq] at h
        exact ⟨h.symm, .inr h2⟩
      · rw [h1] at h
        simp only at h
        rcases hts : tStep mr t ev with _ | r
        · rw [hts] at h; simp at h
        obtain ⟨t', rfl, hst⟩ := h2 r hts
        rw [hts] at h
        simp only at h
        rcases hrun : hearRun ver port mr eos mem fuel t' rest with f' | ⟨hs', t'', rest'⟩
        · rw [hrun] at h
          simp only [Except.error.injEq] at h
          subst h
          obtain ⟨e1, e2⟩ := ih t' rest hrun
          refine ⟨e1, .inl ?_⟩
          obtain ⟨w, hw, w1, w2, _⟩ := hst.part
          rcases e2 with ⟨pre, post, hb⟩ | ⟨hb, hn⟩ | ⟨hb, hn⟩
          · refine ⟨w ++ pre, post, ?_⟩
            rw [hw]
            rcases hb with ⟨rfl, hb⟩ | ⟨rfl, hb⟩
            · left; exact ⟨by simp, hb⟩
            · right; exact ⟨by simp, hb⟩
          · refine ⟨[], rest, .inl ⟨?_, hn⟩⟩
            rw [hw, w1 hb]; rfl
          · refine ⟨[], rest, .inr ⟨?_, hn⟩⟩
            rw [hw, w2 hb]; rfl
        · rw [hrun] at h; simp at h
  obtain ⟨h1, h2 | ⟨h2, _⟩ | ⟨h2, _⟩⟩ := gen fuel t inp h
  · exact ⟨h1, h2⟩
  · exact absurd h2 ht.1
  · exact absurd h2 ht.2

/-- A single call of a state function, however little or much of the answer arrives in time. -/
theorem C107_call_partial (ver port mr : Int) (e : HearEnv) (hm : 13 ≤ e.mem.length) (t : TState) (inp : Bytes)
    (f : Fault) (h : hearStep ver port e t.state inp = some (.error f)) :
    f = .ub ∧ ((t.state = .processErrCmd ∧ NegLen inp) ∨ (t.state = .processAbortCmd ∧ NegAbort inp)) := by
  rcases hearStep_cases ver port mr e hm t inp with ⟨h1, _⟩ | ⟨h1, h2⟩ | ⟨ev, hs, rest, h1, _, h2⟩
  · rw [h1] at h; simp at h
  · rw [h1] at h
    simp only [Option.some.injEq, Except.error.injEq] at h
    exact ⟨h.symm, h2⟩
  · rw [h1] at h; simp at h

/-- The two commands do harm, in every state of the connection. -/
theorem C107_violated (ver port mr : Int) (mem : Bytes) (hm : 13 ≤ mem.length) :
    ∃ inp1 inp2 : Bytes, hearRun ver port mr eOK mem 2 { state := .readReceiverCmd } inp1 = .error .ub ∧ inp1.length = 3 ∧
      hearRun ver port mr eOK mem 2 { state := .readReceiverCmd } inp2 = .error .ub ∧ inp2.length = 14 :=
  ⟨[ERR_CMD, 0xff, 0xff], ABORT_CMD :: List.replicate 13 0xff, (C96_violated_hostile ver port mr mem hm 0).1, rfl,
    (C96_violated_hostile ver port mr mem hm 0).2, rfl⟩

/-- How far a state is from one that waits for a command. -/
def replyRank (st : SState) : Nat :=
  if st = .readReceiverCmd then 0 else if st = .checkForAbort then 2 else 1

theorem hearRun_rest {ver port mr : Int} {eos : ErrCode} {mem : Bytes} {t : TState} {inp : Bytes} (h : ¬ Reads t.state) :
    ∀ fuel, hearRun ver port mr eos mem fuel t inp = .ok ([], t, inp) := by
  intro fuel
  cases fuel with
  | zero => rfl
  | succ fuel =>
    unfold hearRun
    rw [if_neg (fun g => h (.inl g.1))]
    have : hearStep ver port { a1 := inp.length, a2 := inp.length, eos, mem } t.state inp = none := by
      unfold Reads at h
      cases hs : t.state <;> first | rfl | (rw [hs] at h; simp at h)
    rw [this]

/-- The thread ends reading: at the latest after two calls for each byte of the answer it waits for more, or does
something else. -/
theorem C107_ends (ver port mr : Int) (eos : ErrCode) (mem : Bytes) (hm : 13 ≤ mem.length) :
    ∀ (fuel : Nat) (t : TState) (inp : Bytes), 2 * inp.length + 3 ≤ fuel → ∀ hs t' rest,
      hearRun ver port mr eos mem fuel t inp = .ok (hs, t', rest) →
      (t'.state = .readReceiverCmd ∧ rest = []) ∨ ¬ Reads t'.state := by
  have gen : ∀ (fuel : Nat) (t : TState) (inp : Bytes), 2 * inp.length + replyRank t.state < fuel → ∀ hs t' rest,
      hearRun ver port mr eos mem fuel t inp = .ok (hs, t', rest) →
      (t'.state = .readReceiverCmd ∧ rest = []) ∨ ¬ Reads t'.state := by
    intro fuel
    induction fuel with
    | zero => intro t inp h; omega
    | succ fuel ih =>
      intro t inp hf hs t' rest h
      unfold hearRun at h
      by_cases g : t.state = .readReceiverCmd ∧ inp = []
      · rw [if_pos g] at h
        simp only [Except.ok.injEq, Prod.mk.injEq] at h
        obtain ⟨_, rfl, rfl⟩ := h
        exact .inl g
      rw [if_neg g] at h
      rcases hearStep_cases ver port mr { a1 := inp.length, a2 := inp.length, eos, mem } hm t inp with
        ⟨h1, h2⟩ | ⟨h1, h2⟩ | ⟨ev, hs1, rest1, h1, h3, h2⟩
      · rw [h1] at h
        simp only [Except.ok.injEq, Prod.mk.injEq] at h
        obtain ⟨_, rfl, rfl⟩ := h
        exact .inr h2
      · rw [h1] at h; simp at h
      · rw [h1] at h
        simp only at h
        rcases hts : tStep mr t ev with _ | r
        · exact absurd (h3 hts).1 (by dsimp only; decide)
        obtain ⟨t1, rfl, hst⟩ := h2 r hts
        rw [hts] at h
        simp only at h
        rcases hrun : hearRun ver port mr eos mem fuel t1 rest1 with f' | ⟨hs', t'', rest'⟩
        · rw [hrun] at h; simp at h
        rw [hrun] at h
        simp only [Except.ok.injEq, Prod.mk.injEq] at h
        obtain ⟨_, rfl, rfl⟩ := h
        by_cases hr : Reads t1.state
        · refine ih t1 rest1 ?_ _ _ _ hrun
          obtain ⟨w, hw, w1, w2, w3, w4⟩ := hst.part
          have hlen : inp.length = w.length + rest1.length := by rw [hw, List.length_append]
          have hw0 : w ≠ [] → 1 ≤ w.length := fun h => by cases w <;> simp_all
          have hr0 := hr
          unfold Reads at hr
          have hz := hst.noCheck
          unfold replyRank at hf ⊢
          rw [if_neg hz]
          rcases hr with hr | hr | hr | hr | hr | hr
          · rw [if_pos hr]
            rcases hst.out hr with ho | ho
            · have := hw0 ((w4 ho).resolve_right (fun h => h hr0)); omega
            · rw [if_neg (by rw [ho]; decide), if_neg (by rw [ho]; decide)] at hf; omega
          · have ho := hst.cmd (.inr (.inl hr)); have := hw0 ((w4 ho).resolve_right (fun h => h hr0)); split <;> omega
          · rw [w2 hr] at hlen
            simp only [List.length_cons, List.length_nil] at hlen
            split <;> omega
          · have ho := hst.cmd (.inl hr); have := hw0 ((w4 ho).resolve_right (fun h => h hr0)); split <;> omega
          · have ho := hst.cmd (.inr (.inr hr)); have := hw0 ((w4 ho).resolve_right (fun h => h hr0)); split <;> omega
          · exact absurd hr hz
        · rw [hearRun_rest hr] at hrun
          simp only [Except.ok.injEq, Prod.mk.injEq] at hrun
          obtain ⟨_, rfl, rfl⟩ := hrun
          exact .inr hr
  intro fuel t inp hf hs t' rest h
  refine gen fuel t inp ?_ hs t' rest h
  unfold replyRank
  split <;> [omega; split <;> omega]

/-- The thread ends without an error only if the receiver said DONE and then ended the connection. -/
theorem C107_success_needs_done (ver port mr : Int) (eos : ErrCode) (mem : Bytes) (hm : 13 ≤ mem.length) (fuel : Nat) (t : TState)
    (ht : t.state = .readReceiverCmd) (inp : Bytes) (hs : List Heard) (t' : TState) (rest : Bytes)
    (h : hearRun ver port mr eos mem fuel t inp = .ok (hs, t', rest)) (hf : t'.state = .finished) (he : t'.localErr = eOK) :
    .done ∈ hs ∧ (∃ pre, inp = pre ++ DONE_CMD :: rest) ∧ eos = eOK := by
  have gen : ∀ (fuel : Nat) (t : TState) (inp : Bytes) (hs : List Heard), hearRun ver port mr eos mem fuel t inp = .ok (hs, t', rest) →
      t.state ≠ .finished → (t.state = .processDoneCmd ∧ inp = rest ∧ eos = eOK) ∨
        (.done ∈ hs ∧ (∃ pre, inp = pre ++ DONE_CMD :: rest) ∧ eos = eOK) := by
    intro fuel
    induction fuel with
    | zero =>
      intro t inp hs h hne
      simp only [hearRun, Except.ok.injEq, Prod.mk.injEq] at h
      obtain ⟨_, rfl, _⟩ := h
      exact absurd hf hne
    | succ fuel ih =>
      intro t inp hs h hne
      unfold hearRun at h
      by_cases g : t.state = .readReceiverCmd ∧ inp = []
      · rw [if_pos g] at h
        simp only [Except.ok.injEq, Prod.mk.injEq] at h
        obtain ⟨_, rfl, _⟩ := h
        exact absurd hf hne
      rw [if_neg g] at h
      rcases hearStep_cases ver port mr { a1 := inp.length, a2 := inp.length, eos, mem } hm t inp with
        ⟨h1, h2⟩ | ⟨h1, h2⟩ | ⟨ev, hs1, rest1, h1, h3, h2⟩
      · rw [h1] at h
        simp only [Except.ok.injEq, Prod.mk.injEq] at h
        obtain ⟨_, rfl, _⟩ := h
        exact absurd hf hne
      · rw [h1] at h; simp at h
      · rw [h1] at h
        simp only at h
        rcases hts : tStep mr t ev with _ | r
        · exact absurd (h3 hts).1 (by dsimp only; decide)
        obtain ⟨t1, rfl, hst⟩ := h2 r hts
        rw [hts] at h
        simp only at h
        rcases hrun : hearRun ver port mr eos mem fuel t1 rest1 with f' | ⟨hs', t'', rest'⟩
        · rw [hrun] at h; simp at h
        rw [hrun] at h
        simp only [Except.ok.injEq, Prod.mk.injEq] at h
        obtain ⟨rfl, rfl, rfl⟩ := h
        obtain ⟨w, hw, w1, w2, w3, w4⟩ := hst.part
        by_cases hfin : t1.state = .finished
        · rw [hearRun_rest (by unfold Reads; rw [hfin]; simp)] at hrun
          simp only [Except.ok.injEq, Prod.mk.injEq] at hrun
          obtain ⟨_, rfl, rfl⟩ := hrun
          have hd := hst.fin hfin he
          left
          refine ⟨hd, ?_⟩
          have : hearStep ver port { a1 := inp.length, a2 := inp.length, eos, mem } t.state inp = some (.ok (.endOfStream eos, [], inp)) := by
            rw [hd]; rfl
          rw [this] at h1
          simp only [Option.some.injEq, Except.ok.injEq, Prod.mk.injEq] at h1
          refine ⟨h1.2.2, ?_⟩
          obtain ⟨rfl, _⟩ := h1
          have hts' : tStep mr t (.endOfStream eos) = if eos = eOK then some (.ok { t with state := .finished })
              else some (.ok { t with localErr := eos, state := .connect }) := by
            obtain ⟨st, np, le, re, hso, ts⟩ := t
            dsimp only at hd
            subst hd
            rfl
          by_cases g : eos = eOK
          · exact g
          · rw [hts', if_neg g] at hts
            simp only [Option.some.injEq, Except.ok.injEq] at hts
            rw [← hts] at hfin
            cases hfin
        · right
          rcases ih t1 rest1 hs' hrun hfin with ⟨g1, g2, g3⟩ | ⟨g1, ⟨pre, g2⟩, g3⟩
          · obtain ⟨e1, e2⟩ := w3 g1
            refine ⟨by rw [e2]; simp, ⟨[], ?_⟩, g3⟩
            rw [hw, e1, g2]; rfl
          · refine ⟨by simp [g1], ⟨w ++ pre, ?_⟩, g3⟩
            rw [hw, g2]; simp
  rcases gen fuel t inp hs h (by rw [ht]; decide) with ⟨g, _⟩ | g
  · rw [ht] at g; cases g
  · exact g

/-! ### Examples -/

/-- Garbage, a heart beat and a list of checkpoints that cannot be decoded. -/
example : hearRun 30 22356 3 eOK (List.replicate 60 0) 40 { state := .readReceiverCmd }
    [HEART_BEAT_CMD, WAIT_CMD, ERR_CMD, 3, 0, 7, 7, 7, 9] =
    .ok ([.wait], { state := .finished, localErr := ePROTOCOL_ERROR }, [9]) := by
  decide +kernel

/-- A success. -/
example : hearRun 30 22356 3 eOK (List.replicate 60 0) 40 { state := .readReceiverCmd } [HEART_BEAT_CMD, WAIT_CMD, DONE_CMD] =
    .ok ([.wait, .done], { state := .finished }, []) := by
  decide +kernel

example : BadReply [HEART_BEAT_CMD, ERR_CMD, 0xff, 0xff] :=
  (C107_answers_partial 30 22356 3 eOK (List.replicate 60 0) (by decide) { state := .readReceiverCmd } (by decide) 5 _ .ub
    (by decide +kernel)).2

end Wdt
