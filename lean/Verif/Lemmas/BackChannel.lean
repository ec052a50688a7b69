import Verif.Model.BackChannel
import Verif.Lemmas.Protocol
import Verif.Props.Protocol
import Verif.Lemmas.ReceiverStream
/-! Bytes of the receiver's messages and the sender's steps on them. -/
namespace Wdt

/-- Messages a receiver can have to send: fields in the ranges of the encoders, and at most 727 checkpoints
in one list (a thread is told of each checkpoint once; there is at most one per lost connection). -/
def RMsg.WF : RMsg → Prop
  | .localCp c => c.WF
  | .globalCp cs => (∀ c ∈ cs, c.WF) ∧ cs.length ≤ 727
  | .abort v code files => 0 ≤ v ∧ v ≤ int32Max ∧ code < 256 ∧ NN files
  | _ => True

theorem checkpointBytes_length_le (ver : Int) (c : Checkpoint) : (checkpointBytes ver c).length ≤ 45 := by
  have l1 := nnBytes_length_le c.port
  have l2 := nnBytes_length_le c.numBlocks
  have l3 := nnBytes_length_le c.lastBlockReceivedBytes
  have l4 := nnBytes_length_le c.lastBlockSeqId
  have l5 := nnBytes_length_le c.lastBlockOffset
  unfold checkpointBytes
  simp only [List.length_append]
  split <;> split <;> simp only [List.length_append, List.length_nil] <;> omega

theorem checkpointsBytes_length_le (ver : Int) (cs : List Checkpoint) :
    (checkpointsBytes ver cs).length ≤ 9 + 45 * cs.length := by
  unfold checkpointsBytes
  have h1 := encodeVarU64Str_length_le cs.length
  have h2 : (cs.flatMap (checkpointBytes ver)).length ≤ 45 * cs.length := by
    induction cs with
    | nil => simp
    | cons c cs ih =>
      have := checkpointBytes_length_le ver c
      have ih' := ih (encodeVarU64Str_length_le _)
      simp only [List.flatMap_cons, List.length_append, List.length_cons]
      omega
  simp only [List.length_append]
  omega

theorem parses_checkpoints (ver : Int) (cs : List Checkpoint) (h : ∀ c ∈ cs, c.WF) (hl : cs.length < 2 ^ 64) :
    Parses (decodeUInt64.bind fun len => Dec.times (decodeCheckpoint ver) len) (checkpointsBytes ver cs)
      (cs.map (Checkpoint.carried ver)) := by
  unfold checkpointsBytes
  exact (parses_decodeUInt64 _ hl).bind
    (parses_times _ _ _ _ fun c hc => parses_decodeCheckpoint ver c (h c hc))

theorem seg_all (l : Bytes) : seg l 0 l.length = l := by
  unfold seg; simp

theorem decodeCheckpoints_bytes (ver : Int) (cs : List Checkpoint) (h : ∀ c ∈ cs, c.WF) (hl : cs.length < 2 ^ 64)
    (rest : Bytes) (n : Int) (hn : n = ((checkpointsBytes ver cs ++ rest).length : Int)) :
    ∃ o, decodeCheckpoints ver (checkpointsBytes ver cs ++ rest) 0 n =
      .ok (some (cs.map (Checkpoint.carried ver)), o) := by
  subst hn
  unfold decodeCheckpoints withRange
  rw [makeByteRange_ok _ _ _ (by omega) (by omega) (by omega), seg_all]
  simp only [parses_checkpoints ver cs h hl rest]
  exact ⟨_, rfl⟩

theorem sendLocalCp_bytes (ver : Int) (buf : Bytes) (c : Checkpoint) (hc : c.WF) (hb : 60 ≤ buf.length) :
    ∃ junk, sendLocalCp ver buf c = .ok (LOCAL_CHECKPOINT_CMD :: checkpointBytes ver c ++ junk) ∧
      (LOCAL_CHECKPOINT_CMD :: checkpointBytes ver c ++ junk).length = (getMaxLocalCheckpointLength ver).toNat ∧
      checkpointsBytes ver [c] = LOCAL_CHECKPOINT_CMD :: checkpointBytes ver c := by
  have hM : 30 ≤ getMaxLocalCheckpointLength ver ∧ getMaxLocalCheckpointLength ver ≤ 60 := by
    unfold getMaxLocalCheckpointLength; split <;> split <;> omega
  have w := writes_encodeCheckpoints (max := getMaxLocalCheckpointLength ver) (by omega)
    (by unfold int64Max; omega) ver [c] (by simpa using hc)
  obtain ⟨b', o', he, hle⟩ := C07_local_checkpoint_fits ver c hc buf (by omega)
  have hfit := (w.ok_iff buf 0 (by omega) (by omega) (by omega)).1 ⟨b', o', he⟩
  have w' := (w buf 0 (by omega) (by omega) (by omega)).1 hfit
  have e1 : checkpointsBytes ver [c] = LOCAL_CHECKPOINT_CMD :: checkpointBytes ver c := by
    unfold checkpointsBytes
    have : encodeVarU64Str [c].length = [LOCAL_CHECKPOINT_CMD] := by
      show encodeVarU64Str 1 = _
      decide +kernel
    rw [this]
    simp
  rw [e1] at w' hfit
  refine ⟨(buf.drop (checkpointBytes ver c).length.succ).take
    ((getMaxLocalCheckpointLength ver).toNat - (checkpointBytes ver c).length.succ), ?_, ?_, e1⟩
  · unfold sendLocalCp encTake
    rw [w']
    simp only [splice, Except.ok.injEq]
    simp only [List.length_cons] at hfit
    simp only [Int.toNat_zero, List.take_zero, List.nil_append, Nat.zero_add]
    rw [List.take_append, List.take_of_length_le (by simp only [List.length_cons]; omega)]
    simp only [List.length_cons, Nat.succ_eq_add_one]
  · simp only [List.length_cons] at hfit
    simp only [List.length_append, List.length_cons, List.length_take, List.length_drop]
    omega

theorem sendGlobalCp_bytes (ver : Int) (buf : Bytes) (cs : List Checkpoint) (hc : ∀ c ∈ cs, c.WF)
    (hl : cs.length ≤ 727) (hb : 32768 ≤ buf.length) (hb2 : (buf.length : Int) ≤ int64Max) :
    sendGlobalCp ver buf cs =
      .ok (ERR_CMD :: (leBytes 2 (checkpointsBytes ver cs).length ++ checkpointsBytes ver cs)) := by
  have hlen := checkpointsBytes_length_le ver cs
  unfold sendGlobalCp encTake
  rw [storeByte_ok _ _ _ (by omega) (by omega)]
  simp only
  have l1 : (splice buf (0 : Int).toNat [ERR_CMD]).length = buf.length := splice_length _ _ _ (by simp; omega)
  have w := writes_encodeCheckpoints (max := (buf.length : Int)) (by omega) hb2 ver cs hc
  have w' := (w (splice buf (0 : Int).toNat [ERR_CMD]) 3 (by omega) (by omega) (by omega)).1 (by omega)
  rw [w']
  simp only
  generalize hB : checkpointsBytes ver cs = B at *
  have l2 : (splice (splice buf (0 : Int).toNat [ERR_CMD]) (3 : Int).toNat B).length = buf.length := by
    rw [splice_length _ _ _ (by rw [l1]; show 3 + B.length ≤ _; omega), l1]
  have e3 : (3 : Int) + B.length - 3 = B.length := by omega
  rw [e3, storeBytes_ok _ _ _ (by omega) (by rw [leBytes_length, l2]; omega)]
  simp only [Except.ok.injEq]
  apply List.ext_getElem?
  intro i
  have e : (3 + (B.length : Int)).toNat = 3 + B.length := by omega
  rw [e]
  have hLB : (leBytes 2 (B.length : Int)).length = 2 := leBytes_length _ _
  by_cases hi : i < 3 + B.length
  · rw [List.getElem?_take_of_lt hi, splice_getElem? _ _ _ (by rw [hLB, l2]; show 1 + 2 ≤ _; omega),
      splice_getElem? _ _ _ (by rw [l1]; show 3 + B.length ≤ _; omega), hLB]
    show (if i < 1 then _ else if i < 1 + 2 then _ else _) = _
    by_cases h0 : i < 1
    · rw [if_pos h0]
      have : i = 0 := by omega
      subst this
      rw [if_pos (by show 0 < 3; omega), splice_getElem? _ _ _ (by simp; omega)]
      simp
    · rw [if_neg h0]
      by_cases h3 : i < 1 + 2
      · rw [if_pos h3]
        obtain ⟨j, rfl⟩ : ∃ j, i = j + 1 := ⟨i - 1, by omega⟩
        rw [List.getElem?_cons_succ, List.getElem?_append_left (by omega)]
        rfl
      · rw [if_neg h3, if_neg (by show ¬ i < 3; omega), if_pos (by show i < 3 + B.length; omega)]
        obtain ⟨j, rfl⟩ : ∃ j, i = j + 1 := ⟨i - 1, by omega⟩
        rw [List.getElem?_cons_succ, List.getElem?_append_right (by omega), hLB]
        congr 1
  · rw [List.getElem?_eq_none (by rw [List.length_take]; omega),
      List.getElem?_eq_none (by simp only [List.length_cons, List.length_append]; omega)]

theorem sendAbort_bytes (buf : Bytes) (v : Int) (code : Nat) (files : Int) (hb : 14 ≤ buf.length) :
    sendAbort buf v code files =
      .ok (ABORT_CMD :: (leBytes 4 v ++ ([UInt8.ofNat code] ++ leBytes 8 files))) := by
  unfold sendAbort encTake
  rw [storeByte_ok _ _ _ (by omega) (by omega)]
  simp only
  have l1 : (splice buf (0 : Int).toNat [ABORT_CMD]).length = buf.length := splice_length _ _ _ (by simp; omega)
  have w := writes_encodeAbort buf.length v code files
  generalize hB : leBytes 4 v ++ ([UInt8.ofNat code] ++ leBytes 8 files) = B at *
  have hBl : B.length = 13 := by rw [← hB]; simp [leBytes_length]
  have w' := (w (splice buf (0 : Int).toNat [ABORT_CMD]) 1 (by omega) (by omega) (by omega)).1 (by omega)
  rw [w']
  simp only [Except.ok.injEq]
  have e : (1 + (B.length : Int)).toNat = 1 + B.length := by omega
  rw [e]
  show (splice (splice buf 0 [ABORT_CMD]) (0 + [ABORT_CMD].length) B).take _ = _
  rw [splice_append _ _ _ _ (by simp; omega)]
  unfold splice
  simp only [List.take_zero, List.nil_append]
  rw [List.take_append_of_le_length (by simp; omega), List.take_of_length_le (by simp; omega)]
  rfl

/-! ### The sender's steps on a message -/

/-- What a message says, heart beats and what only keeps the connection alive left out. -/
def heardOf (ver : Int) : RMsg → Option Heard
  | .wait => some .wait
  | .done => some .done
  | .globalCp cs => some (.checkpoints (cs.map (Checkpoint.carried ver)))
  | .abort v code files => some (.abort v code files)
  | _ => none

/-- Puts what was heard in front of the rest of a run. -/
def prep (hs : List Heard) : Except Fault (List Heard × TState × Bytes) → Except Fault (List Heard × TState × Bytes)
  | .error f => .error f
  | .ok (hs', t, r) => .ok (hs ++ hs', t, r)

/-- States in which the thread does not read. -/
def StopState (s : SState) : Prop := s = .connect ∨ s = .sendBlocks ∨ s = .finished ∨ s = .processVersionMismatch

theorem hearRun_stop {ver port mr : Int} {eos : ErrCode} {mem : Bytes} {t : TState} (h : StopState t.state) :
    ∀ n inp, hearRun ver port mr eos mem n t inp = .ok ([], t, inp)
  | 0, _ => rfl
  | n + 1, inp => by
    unfold hearRun
    rw [if_neg (by rintro ⟨h1, _⟩; rcases h with h | h | h | h <;> rw [h] at h1 <;> simp at h1)]
    have : ∀ e, hearStep ver port e t.state inp = none := by
      intro e
      rcases h with h | h | h | h <;> rw [h] <;> rfl
    rw [this]

theorem hearRun_step {ver port mr : Int} {eos : ErrCode} {mem : Bytes} {t t' : TState} {inp rest : Bytes}
    {ev : TEnv} {hs : List Heard} (hne : ¬ (t.state = .readReceiverCmd ∧ inp = []))
    (h1 : hearStep ver port { a1 := inp.length, a2 := inp.length, eos := eos, mem := mem } t.state inp =
      some (.ok (ev, hs, rest)))
    (h2 : tStep mr t ev = some (.ok t')) (n : Nat) :
    hearRun ver port mr eos mem (n + 1) t inp = prep hs (hearRun ver port mr eos mem n t' rest) := by
  conv => lhs; unfold hearRun
  rw [if_neg hne, h1]
  simp only [h2]
  cases hearRun ver port mr eos mem n t' rest with
  | error f => rfl
  | ok r => rfl

theorem readSome_app (b w : Bytes) : readSome (b ++ w) b.length (b ++ w).length = (b, w) := by
  unfold readSome
  have : min b.length (b ++ w).length = b.length := by simp
  rw [this]; simp

theorem readSome_app' (b w : Bytes) (n av : Nat) (hn : n = b.length) (hav : b.length ≤ av) :
    readSome (b ++ w) n av = (b, w) := by
  unfold readSome
  subst hn
  have : min b.length av = b.length := by omega
  rw [this]; simp

theorem readSome_one (c : UInt8) (w : Bytes) (av : Nat) (h : 1 ≤ av) : readSome (c :: w) 1 av = ([c], w) :=
  readSome_app' [c] w 1 av rfl (by simpa using h)

theorem loadInt16_le (n : Nat) (h : n < 32768) : loadInt16 (leBytes 2 (n : Int)) 0 = .ok (n : Int) := by
  have hl := leNat_leBytes 2 (n : Int) (by omega) (by omega)
  unfold loadInt16
  have : loadBytes (leBytes 2 (n : Int)) 0 2 = .ok (leBytes 2 (n : Int)) := by
    simp [leBytes, loadBytes, loadByte]
  rw [this]
  simp only
  rw [if_pos (by omega), hl]

theorem prep_nil (r : Except Fault (List Heard × TState × Bytes)) : prep [] r = r := by
  cases r <;> rfl

theorem prep_prep (a b : List Heard) (r : Except Fault (List Heard × TState × Bytes)) :
    prep a (prep b r) = prep (a ++ b) r := by
  cases r with
  | error f => rfl
  | ok r => simp [prep]

theorem hearAbort_bytes (ver : Int) (e : HearEnv) (v : Int) (code : Nat) (files : Int) (h1 : 0 ≤ v)
    (h2 : v ≤ int32Max) (h3 : code < 256) (h4 : NN files) (hmem : 13 ≤ e.mem.length) (w : Bytes) (ha : 13 ≤ e.a1) :
    hearAbort ver e (leBytes 4 v ++ ([UInt8.ofNat code] ++ leBytes 8 files) ++ w) =
      .ok (.abortRead code (decide (negotiateProtocol v ver = v)), [.abort v code files], w) := by
  have e2 : int32Max = 2147483647 := rfl
  have e3 : int64Max = 9223372036854775807 := rfl
  have hk : kAbortLength = 13 := rfl
  generalize hB : leBytes 4 v ++ ([UInt8.ofNat code] ++ leBytes 8 files) = B at *
  have hBl : B.length = 13 := by rw [← hB]; simp [leBytes_length]
  unfold hearAbort
  simp only
  rw [readSome_app' _ _ _ _ (by rw [hBl]; rfl) (by omega)]
  simp only
  rw [if_neg (by rw [hBl]; decide)]
  have hd : ∃ o, decodeAbort (B ++ e.mem.drop B.length) 0 e.mem.length = .ok (some (v, code, files), o) := by
    unfold decodeAbort
    have hll : (B ++ e.mem.drop B.length).length = e.mem.length := by simp; omega
    rw [if_neg (by omega), makeByteRange_ok _ _ _ (by omega) (by omega) (by omega), ← hll, seg_all]
    simp only
    have p1 := parses_decodeIntFixed 4 v h1 (by omega) (([UInt8.ofNat code] ++ leBytes 8 files) ++ e.mem.drop B.length)
    have p2 := parses_decodeIntFixed 8 files h4.1 (by have := h4.2; omega) (e.mem.drop B.length)
    have e : B ++ e.mem.drop B.length = leBytes 4 v ++ (([UInt8.ofNat code] ++ leBytes 8 files) ++ e.mem.drop B.length) := by
      conv => lhs; lhs; rw [← hB]
      simp
    rw [e, p1]
    simp only [List.cons_append, List.nil_append]
    rw [p2]
    simp only
    rw [show (UInt8.ofNat code).toNat = code by rw [UInt8.toNat_ofNat']; omega]
    exact ⟨_, rfl⟩
  obtain ⟨o, hd⟩ := hd
  rw [hd]

theorem msg_step (ver port mr : Int) (eos : ErrCode) (mem : Bytes) (hmem : 13 ≤ mem.length) (t : TState)
    (ht : t.state = .readReceiverCmd) (buf : Bytes) (hb : 32768 ≤ buf.length) (hb2 : (buf.length : Int) ≤ int64Max)
    (m : RMsg) (hm : m.WF) :
    ∃ b, sendMsg ver buf m = .ok b ∧ ∃ k t', 1 ≤ k ∧ k ≤ 2 ∧ (t' = t ∨ StopState t'.state) ∧
      (m = .heart → k = 1 ∧ t' = t) ∧
      ∀ n w, hearRun ver port mr eos mem (n + k) t (b ++ w) =
        prep (heardOf ver m).toList (hearRun ver port mr eos mem n t' w) := by
  cases m with
  | heart =>
    refine ⟨_, rfl, 1, t, by omega, by omega, .inl rfl, fun _ => ⟨rfl, rfl⟩, fun n w => ?_⟩
    refine hearRun_step (ev := .cmdHeartBeat) (by simp) ?_ ?_ n
    · rw [ht]
      simp [hearStep, hearCmd, readSome, heardOf, ERR_CMD, WAIT_CMD, DONE_CMD, ABORT_CMD, LOCAL_CHECKPOINT_CMD,
        HEART_BEAT_CMD]
    · unfold tStep; rw [ht]
  | wait =>
    refine ⟨_, rfl, 2, t, by omega, by omega, .inl rfl, by simp, fun n w => ?_⟩
    have s1 := hearRun_step (ver := ver) (port := port) (mr := mr) (eos := eos) (mem := mem) (t := t)
      (t' := { t with state := .processWaitCmd }) (inp := [WAIT_CMD] ++ w) (rest := w) (ev := .cmdWait)
      (hs := [.wait]) (by simp)
      (by
        rw [ht]
        simp [hearStep, hearCmd, readSome, ERR_CMD, WAIT_CMD, DONE_CMD, ABORT_CMD, LOCAL_CHECKPOINT_CMD,
          HEART_BEAT_CMD])
      (by unfold tStep; rw [ht]) (n + 1)
    have s2 := hearRun_step (ver := ver) (port := port) (mr := mr) (eos := eos) (mem := mem)
      (t := { t with state := .processWaitCmd })
      (t' := t) (inp := w) (rest := w) (ev := .waitProcessed) (hs := []) (by simp) rfl
      (by
        unfold tStep
        simp only
        congr 2
        rw [← ht]) n
    rw [show n + 2 = n + 1 + 1 from rfl, s1, s2, prep_prep]
    rfl
  | ack =>
    refine ⟨_, rfl, 1, { t with localErr := ePROTOCOL_ERROR, state := .finished }, by omega, by omega,
      .inr (.inr (.inr (.inl rfl))), by simp, fun n w => ?_⟩
    refine hearRun_step (ev := .cmdUnknown) (by simp) ?_ ?_ n
    · rw [ht]
      simp [hearStep, hearCmd, readSome, heardOf, ERR_CMD, WAIT_CMD, DONE_CMD, ABORT_CMD, LOCAL_CHECKPOINT_CMD,
        HEART_BEAT_CMD, ACK_CMD]
    · unfold tStep; rw [ht]
  | done =>
    refine ⟨_, rfl, 2, if eos = eOK then { t with state := .finished } else { t with localErr := eos, state := .connect },
      by omega, by omega, ?_, by simp, fun n w => ?_⟩
    · right
      split
      · exact .inr (.inr (.inl rfl))
      · exact .inl rfl
    have s1 := hearRun_step (ver := ver) (port := port) (mr := mr) (eos := eos) (mem := mem) (t := t)
      (t' := { t with state := .processDoneCmd }) (inp := [DONE_CMD] ++ w) (rest := w) (ev := .cmdDone)
      (hs := [.done]) (by simp)
      (by
        rw [ht]
        simp [hearStep, hearCmd, readSome, ERR_CMD, WAIT_CMD, DONE_CMD, ABORT_CMD, LOCAL_CHECKPOINT_CMD,
          HEART_BEAT_CMD])
      (by unfold tStep; rw [ht]) (n + 1)
    have s2 := hearRun_step (ver := ver) (port := port) (mr := mr) (eos := eos) (mem := mem)
      (t := { t with state := .processDoneCmd })
      (t' := if eos = eOK then { t with state := .finished } else { t with localErr := eos, state := .connect })
      (inp := w) (rest := w) (ev := .endOfStream eos) (hs := []) (by simp) rfl
      (by
        unfold tStep
        simp only
        split <;> rfl) n
    rw [show n + 2 = n + 1 + 1 from rfl, s1, s2, prep_prep]
    rfl
  | localCp c =>
    obtain ⟨junk, hs, hl, he⟩ := sendLocalCp_bytes ver buf c hm (by omega)
    refine ⟨_, hs, 1, if (c.carried ver).port = port ∧ (c.carried ver).numBlocks = 0 ∧
      (c.carried ver).lastBlockReceivedBytes = 0 then t
      else { t with localErr := ePROTOCOL_ERROR, state := .finished }, by omega, by omega, ?_, by simp, fun n w => ?_⟩
    · split
      · exact .inl rfl
      · exact .inr (.inr (.inr (.inl rfl)))
    obtain ⟨o, hd⟩ := decodeCheckpoints_bytes ver [c] (by intro x hx; rw [List.mem_singleton.1 hx]; exact hm) (by simp) junk
      ((getMaxLocalCheckpointLength ver).toNat) (by rw [he, ← hl])
    rw [he] at hd
    have hsp : ∀ av, (checkpointBytes ver c ++ junk).length ≤ av →
        readSpurious ver port av (checkpointBytes ver c ++ junk ++ w) =
        .ok (if (c.carried ver).port = port ∧ (c.carried ver).numBlocks = 0 ∧
          (c.carried ver).lastBlockReceivedBytes = 0 then CpRead.set .ok else .malformed, w) := by
      intro av hav
      unfold readSpurious
      have hlen : (getMaxLocalCheckpointLength ver).toNat - 1 = (checkpointBytes ver c ++ junk).length := by
        rw [← hl]; simp
      simp only
      rw [readSome_app' _ _ _ _ hlen hav]
      simp only
      rw [if_neg (by rw [hlen]; simp)]
      rw [show LOCAL_CHECKPOINT_CMD :: (checkpointBytes ver c ++ junk) =
        LOCAL_CHECKPOINT_CMD :: checkpointBytes ver c ++ junk from rfl, hd]
      simp only [List.map_cons, List.map_nil]
      split <;> rfl
    refine hearRun_step (ev := .cmdCheckpoint (if (c.carried ver).port = port ∧ (c.carried ver).numBlocks = 0 ∧
          (c.carried ver).lastBlockReceivedBytes = 0 then CpRead.set .ok else .malformed)) (by simp) ?_ ?_ n
    · rw [ht]
      unfold hearStep hearCmd
      simp only [List.cons_append, List.append_assoc, heardOf, Option.toList_none]
      rw [readSome_one _ _ _ (by simp)]
      simp only
      rw [if_neg (by decide), if_neg (by decide), if_neg (by decide), if_neg (by decide), if_pos trivial,
        ← List.append_assoc, hsp _ (by simp; omega)]
    · by_cases h : (c.carried ver).port = port ∧ (c.carried ver).numBlocks = 0 ∧ (c.carried ver).lastBlockReceivedBytes = 0
      · rw [if_pos h, if_pos h]
        unfold tStep; rw [ht]
      · rw [if_neg h, if_neg h]
        unfold tStep; rw [ht]
  | globalCp cs =>
    have hs := sendGlobalCp_bytes ver buf cs hm.1 hm.2 hb hb2
    have hlen := checkpointsBytes_length_le ver cs
    have hl := hm.2
    refine ⟨_, hs, 2, { t with state := .sendBlocks }, by omega, by omega, .inr (.inr (.inl rfl)), by simp,
      fun n w => ?_⟩
    generalize hB : checkpointsBytes ver cs = B at *
    have s1 := hearRun_step (ver := ver) (port := port) (mr := mr) (eos := eos) (mem := mem) (t := t)
      (t' := { t with state := .processErrCmd }) (inp := ERR_CMD :: (leBytes 2 (B.length : Int) ++ B) ++ w)
      (rest := leBytes 2 (B.length : Int) ++ B ++ w) (ev := .cmdErr)
      (hs := []) (by simp)
      (by
        rw [ht]
        unfold hearStep hearCmd
        simp only [List.cons_append]
        rw [readSome_one _ _ _ (by simp)]
        simp only
        rw [if_pos trivial])
      (by unfold tStep; rw [ht]) (n + 1)
    have s2 := hearRun_step (ver := ver) (port := port) (mr := mr) (eos := eos) (mem := mem)
      (t := { t with state := .processErrCmd })
      (t' := { t with state := .sendBlocks }) (inp := leBytes 2 (B.length : Int) ++ B ++ w) (rest := w)
      (ev := .errProcessed) (hs := [.checkpoints (cs.map (Checkpoint.carried ver))]) (by simp)
      (by
        show some (hearErr _ _ _) = _
        unfold hearErr
        simp only
        rw [List.append_assoc, readSome_app' _ _ _ _ (leBytes_length 2 _).symm (by simp)]
        simp only
        rw [if_neg (by rw [leBytes_length]; simp), loadInt16_le _ (by omega)]
        simp only
        rw [if_neg (by omega), readSome_app' _ _ _ _ (by omega) (by simp; omega)]
        simp only
        rw [if_neg (by simp)]
        obtain ⟨o, hd⟩ := decodeCheckpoints_bytes ver cs hm.1 (by omega) [] B.length (by rw [hB]; simp)
        rw [hB, List.append_nil] at hd
        rw [hd])
      rfl n
    rw [show n + 2 = n + 1 + 1 from rfl, s1, s2, prep_prep]
    rfl
  | abort v code files =>
    have hs := sendAbort_bytes buf v code files (by omega)
    obtain ⟨h1, h2, h3, h4⟩ := hm
    have e2 : int32Max = 2147483647 := rfl
    have e3 : int64Max = 9223372036854775807 := rfl
    generalize hB : leBytes 4 v ++ ([UInt8.ofNat code] ++ leBytes 8 files) = B at *
    have hBl : B.length = 13 := by rw [← hB]; simp [leBytes_length]
    have hk : kAbortLength = 13 := rfl
    have hts : ∃ t', StopState t'.state ∧ tStep mr { t with state := .processAbortCmd }
        (.abortRead code (decide (negotiateProtocol v ver = v))) = some (.ok t') := by
      unfold tStep
      simp only
      split
      · split
        · exact ⟨_, .inr (.inr (.inr rfl)), rfl⟩
        · exact ⟨_, .inr (.inr (.inl rfl)), rfl⟩
      · exact ⟨_, .inr (.inr (.inl rfl)), rfl⟩
    obtain ⟨t', ht', hst⟩ := hts
    refine ⟨_, hs, 2, t', by omega, by omega, .inr ht', by simp, fun n w => ?_⟩
    have s1 := hearRun_step (ver := ver) (port := port) (mr := mr) (eos := eos) (mem := mem) (t := t)
      (t' := { t with state := .processAbortCmd }) (inp := ABORT_CMD :: B ++ w)
      (rest := B ++ w) (ev := .cmdAbort)
      (hs := []) (by simp)
      (by
        rw [ht]
        unfold hearStep hearCmd
        simp only [List.cons_append]
        rw [readSome_one _ _ _ (by simp)]
        simp only
        rw [if_neg (by decide), if_neg (by decide), if_neg (by decide), if_pos trivial])
      (by unfold tStep; rw [ht]) (n + 1)
    have s2 := hearRun_step (ver := ver) (port := port) (mr := mr) (eos := eos) (mem := mem)
      (t := { t with state := .processAbortCmd })
      (t' := t') (inp := B ++ w) (rest := w)
      (ev := .abortRead code (decide (negotiateProtocol v ver = v))) (hs := [.abort v code files]) (by simp)
      (by
        show some (hearAbort _ _ _) = _
        rw [← hB, hearAbort_bytes ver _ v code files h1 h2 h3 h4 hmem w (by simp [leBytes_length]; omega)])
      hst n
    rw [show n + 2 = n + 1 + 1 from rfl, s1, s2, prep_prep]
    rfl

end Wdt
