import Verif.Lemmas.BackChannel
import Mathlib.Tactic.ByContra
/-!
# C96  Heart beats

While it works on a block the receiver tells the sender now and then, with a single byte, that it is alive.
Wanted: these bytes keep the sender patient and change nothing else; whatever the receiver has to say (checkpoints,
WAIT, DONE, ABORT and its reason) is understood as without them.
-/
namespace Wdt

/-- The messages without heart beats. -/
def noHearts (ms : List (Bytes × RMsg)) : List (Bytes × RMsg) := ms.filter fun p => p.2 ≠ .heart

/-- All messages can be sent, from buffers of a receiver thread. -/
def AllWF (ms : List (Bytes × RMsg)) : Prop :=
  ∀ p ∈ ms, p.2.WF ∧ 32768 ≤ p.1.length ∧ (p.1.length : Int) ≤ int64Max

/-- Both sides agree on whether there are heart beats: a receiver decodes from the settings exactly the decision
of the sender, which is its option if the version knows heart beats. -/
theorem C96_agreed (ver : Int) (hver : 0 ≤ ver ∧ ver ≤ int32Max) (option : Bool) (s : Settings) (hs : s.WF)
    (max : Int) (hm : max ≤ int64Max) (buf buf' : Bytes) (off off' : Int)
    (h0 : 0 ≤ off) (h1 : off ≤ max) (h2 : max ≤ buf.length)
    (he : encodeSettings ver max { s with enableHeartBeat := heartBeatOn ver option } buf off = .ok (true, buf', off'))
    (m m' : Int) (hm1 : off' ≤ m) (hm2 : m ≤ buf'.length) (hm3 : off + (nnBytes ver).length ≤ m')
    (hm4 : m' ≤ buf'.length) :
    ∃ off1 r, decodeVersion buf' off m' = .ok (some ver, off1) ∧
      decodeSettings ver {} buf' off1 m = .ok (some r, off') ∧
      r.enableHeartBeat = (decide (29 ≤ ver) && option) ∧ (r.enableHeartBeat = heartBeatOn ver option) := by
  obtain ⟨o, h3, h4⟩ := C08_settings_roundtrip ver hver { s with enableHeartBeat := heartBeatOn ver option } hs max hm
    buf buf' off off' h0 h1 h2 he m m' hm1 hm2 hm3 hm4
  refine ⟨o, _, h3, h4, ?_⟩
  have e : (Settings.carried ver { s with enableHeartBeat := heartBeatOn ver option }).enableHeartBeat =
      heartBeatOn ver option := by
    unfold Settings.carried
    split
    · rfl
    · rename_i h
      unfold heartBeatOn HEART_BEAT_VERSION
      rw [decide_eq_false (by omega)]
      rfl
  rw [e]
  exact ⟨rfl, rfl⟩

theorem sendMsgs_ok {ver : Int} {ms : List (Bytes × RMsg)} (h : AllWF ms) : ∃ w, sendMsgs ver ms = .ok w := by
  induction ms with
  | nil => exact ⟨_, rfl⟩
  | cons p ms ih =>
    obtain ⟨w, hw⟩ := ih fun q hq => h q (List.mem_cons_of_mem _ hq)
    obtain ⟨hm, hb, hb2⟩ := h p List.mem_cons_self
    obtain ⟨b, hb', _⟩ := msg_step ver 0 0 eOK (List.replicate 13 0) (by decide) { state := .readReceiverCmd } rfl p.1 hb hb2
      p.2 hm
    obtain ⟨buf, m⟩ := p
    exact ⟨b ++ w, by simp only [sendMsgs, hb', hw]⟩

theorem hear_main (ver port mr : Int) (eos : ErrCode) (mem : Bytes) (hmem : 13 ≤ mem.length) (t : TState)
    (ht : t.state = .readReceiverCmd) (ms : List (Bytes × RMsg)) (h : AllWF ms) :
    ∃ (used rest : List (Bytes × RMsg)) (t' : TState), ms = used ++ rest ∧
      (t' = t ∧ rest = [] ∨ StopState t'.state) ∧
      ∀ w, sendMsgs ver ms = .ok w → ∀ w0, sendMsgs ver (noHearts ms) = .ok w0 → ∃ w1 w2,
        sendMsgs ver rest = .ok w1 ∧ sendMsgs ver (noHearts rest) = .ok w2 ∧
        ∀ n, 2 * ms.length ≤ n →
          hearRun ver port mr eos mem n t w = .ok (used.filterMap (fun p => heardOf ver p.2), t', w1) ∧
          hearRun ver port mr eos mem n t w0 = .ok (used.filterMap (fun p => heardOf ver p.2), t', w2) := by
  induction ms with
  | nil =>
    refine ⟨[], [], t, rfl, .inl ⟨rfl, rfl⟩, fun w hw w0 hw0 => ⟨w, w0, hw, hw0, fun n _ => ?_⟩⟩
    simp only [sendMsgs, Except.ok.injEq] at hw
    simp only [noHearts, List.filter_nil, sendMsgs, Except.ok.injEq] at hw0
    subst hw; subst hw0
    cases n with
    | zero => exact ⟨rfl, rfl⟩
    | succ n => constructor <;> (unfold hearRun; rw [if_pos ⟨ht, rfl⟩]; rfl)
  | cons p ms ih =>
    have htl : AllWF ms := fun q hq => h q (List.mem_cons_of_mem _ hq)
    obtain ⟨used, rest, t', e, hcase, hrun⟩ := ih htl
    obtain ⟨hm, hb, hb2⟩ := h p List.mem_cons_self
    obtain ⟨b, hb', k, t1, hk1, hk2, htt, hh, hstep⟩ := msg_step ver port mr eos mem hmem t ht p.1 hb hb2 p.2 hm
    obtain ⟨buf, m⟩ := p
    obtain ⟨wt, hwt⟩ := sendMsgs_ok (ver := ver) htl
    have hnh : AllWF (noHearts ms) := fun q hq => htl q ((List.mem_filter.1 hq).1)
    obtain ⟨wn, hwn⟩ := sendMsgs_ok (ver := ver) hnh
    have hsend : sendMsgs ver ((buf, m) :: ms) = .ok (b ++ wt) := by simp only [sendMsgs, hb', hwt]
    by_cases hheart : m = .heart
    · obtain ⟨rfl, rfl⟩ := hh hheart
      have hn : noHearts ((buf, m) :: ms) = noHearts ms := by
        unfold noHearts; rw [List.filter_cons_of_neg (by simp [hheart])]
      obtain ⟨w1, w2, g1, g2, g3⟩ := hrun wt hwt wn hwn
      refine ⟨(buf, m) :: used, rest, t', by rw [e]; rfl, hcase, fun w hw w0 hw0 => ⟨w1, w2, g1, g2, fun n hn' => ?_⟩⟩
      rw [hsend] at hw
      rw [hn, hwn] at hw0
      obtain rfl := Except.ok.inj hw
      obtain rfl := Except.ok.inj hw0
      simp only [List.length_cons] at hn'
      obtain ⟨j, rfl⟩ : ∃ j, n = j + 1 := ⟨n - 1, by omega⟩
      have hnone : heardOf ver m = none := by rw [hheart]; rfl
      rw [hstep j wt, hnone, Option.toList_none, prep_nil, (g3 j (by omega)).1]
      rw [(g3 (j + 1) (by omega)).2]
      simp only [List.filterMap_cons, hnone]
      exact ⟨trivial, trivial⟩
    · have hn : noHearts ((buf, m) :: ms) = (buf, m) :: noHearts ms := by
        unfold noHearts; rw [List.filter_cons_of_pos (by simp [hheart])]
      have hsend2 : sendMsgs ver (noHearts ((buf, m) :: ms)) = .ok (b ++ wn) := by
        rw [hn]; simp only [sendMsgs, hb', hwn]
      rcases htt with rfl | hst
      · obtain ⟨w1, w2, g1, g2, g3⟩ := hrun wt hwt wn hwn
        refine ⟨(buf, m) :: used, rest, t', by rw [e]; rfl, hcase, fun w hw w0 hw0 => ⟨w1, w2, g1, g2, fun n hn' => ?_⟩⟩
        rw [hsend] at hw
        rw [hsend2] at hw0
        obtain rfl := Except.ok.inj hw
        obtain rfl := Except.ok.inj hw0
        simp only [List.length_cons] at hn'
        obtain ⟨j, rfl⟩ : ∃ j, n = j + k := ⟨n - k, by omega⟩
        rw [hstep j wt, hstep j wn, (g3 j (by omega)).1, (g3 j (by omega)).2]
        simp only [prep, List.filterMap_cons]
        cases heardOf ver m <;> exact ⟨rfl, rfl⟩
      · refine ⟨[(buf, m)], ms, t1, rfl, .inr hst, fun w hw w0 hw0 => ⟨wt, wn, hwt, hwn, fun n hn' => ?_⟩⟩
        rw [hsend] at hw
        rw [hsend2] at hw0
        obtain rfl := Except.ok.inj hw
        obtain rfl := Except.ok.inj hw0
        simp only [List.length_cons] at hn'
        obtain ⟨j, rfl⟩ : ∃ j, n = j + k := ⟨n - k, by omega⟩
        rw [hstep j wt, hstep j wn, hearRun_stop hst, hearRun_stop hst]
        simp only [prep, List.filterMap_cons, List.filterMap_nil]
        cases heardOf ver m <;> exact ⟨rfl, rfl⟩

/-- **Heart beats are invisible to a sender that waits for the receiver's answer.**  Let the receiver send any
messages, any number of heart beats among them; the sender, waiting for a command, reads until it
has something else to do (send more, reconnect, end, negotiate) or until everything is read.  It stops at the same
message, in the same state, with the same error codes as if there had been no heart beats; and what it took
from the messages up to there is exactly what they say: which checkpoints, which error the receiver aborted with.
Partial: the other places where the sender reads are `C96_violated_hidden` and `C96_violated_swallowed`. -/
theorem C96_transparent_partial (ver port maxRetries : Int) (eos : ErrCode) (mem : Bytes) (hmem : 13 ≤ mem.length)
    (t : TState) (ht : t.state = .readReceiverCmd) (ms : List (Bytes × RMsg)) (h : AllWF ms) :
    ∃ (used rest : List (Bytes × RMsg)) (t' : TState) (w w0 w1 w2 : Bytes), ms = used ++ rest ∧
      (t' = t ∧ rest = [] ∨ t'.state = .connect ∨ t'.state = .sendBlocks ∨ t'.state = .finished ∨
        t'.state = .processVersionMismatch) ∧
      sendMsgs ver ms = .ok w ∧ sendMsgs ver (noHearts ms) = .ok w0 ∧
      sendMsgs ver rest = .ok w1 ∧ sendMsgs ver (noHearts rest) = .ok w2 ∧
      ∀ n, 2 * ms.length ≤ n →
        hearRun ver port maxRetries eos mem n t w = .ok (used.filterMap (fun p => heardOf ver p.2), t', w1) ∧
        hearRun ver port maxRetries eos mem n t w0 = .ok (used.filterMap (fun p => heardOf ver p.2), t', w2) := by
  obtain ⟨used, rest, t', e, hc, hrun⟩ := hear_main ver port maxRetries eos mem hmem t ht ms h
  obtain ⟨w, hw⟩ := sendMsgs_ok (ver := ver) h
  obtain ⟨w0, hw0⟩ := sendMsgs_ok (ver := ver) (ms := noHearts ms) fun q hq => h q ((List.mem_filter.1 hq).1)
  obtain ⟨w1, w2, g1, g2, g3⟩ := hrun w hw w0 hw0
  exact ⟨used, rest, t', w, w0, w1, w2, e, hc, hw, hw0, g1, g2, g3⟩

/-- A heart-beat read takes nothing but heart beats, if nothing else has arrived: then all other
messages are still there to be read. -/
theorem C96_poll_partial (ver : Int) (on due : Bool) (bufSize av : Nat) (hs rest : List (Bytes × RMsg))
    (hh : ∀ p ∈ hs, p.2 = .heart) (w : Bytes) (hw : sendMsgs ver (hs ++ rest) = .ok w) (hav : av ≤ hs.length) :
    ∃ k w', k ≤ hs.length ∧ sendMsgs ver (hs.drop k ++ rest) = .ok w' ∧ (readHeartBeats on due bufSize av w).2 = w' := by
  have key : ∀ (hs : List (Bytes × RMsg)), (∀ p ∈ hs, p.2 = .heart) → ∀ w, sendMsgs ver (hs ++ rest) = .ok w →
      ∀ k, k ≤ hs.length → sendMsgs ver (hs.drop k ++ rest) = .ok (w.drop k) := by
    intro hs
    induction hs with
    | nil => intro _ w hw k hk; simp at hk; subst hk; simpa using hw
    | cons p hs ih =>
      intro hh w hw k hk
      cases k with
      | zero => simpa using hw
      | succ k =>
        obtain ⟨buf, m⟩ := p
        have hm : m = .heart := hh (buf, m) List.mem_cons_self
        subst hm
        rw [List.cons_append] at hw
        simp only [sendMsgs, sendMsg] at hw
        cases hr : sendMsgs ver (hs ++ rest) with
        | error f => rw [hr] at hw; simp at hw
        | ok w1 =>
          rw [hr] at hw
          obtain rfl := Except.ok.inj hw
          simp only [List.drop_succ_cons, List.cons_append, List.nil_append]
          exact ih (fun q hq => hh q (List.mem_cons_of_mem _ hq)) w1 hr k (by simpa using hk)
  unfold readHeartBeats
  by_cases h1 : on
  · by_cases h2 : due
    · refine ⟨min bufSize av, w.drop (min bufSize av), by omega, key hs hh w hw _ (by omega), ?_⟩
      rw [h1, h2]
      simp only [Bool.not_true, Bool.false_eq_true, if_false]
      have hr : w.drop (min bufSize av) = (readSome w bufSize av).2 := rfl
      rw [hr]
      generalize readSome w bufSize av = r
      by_cases g1 : r.1 = []
      · rw [if_pos g1]
      · rw [if_neg g1]
        cases r.1.all (· == HEART_BEAT_CMD) <;> rfl
    · exact ⟨0, w, by omega, by simpa using hw, by simp [h2]⟩
  · exact ⟨0, w, by omega, by simpa using hw, by simp [h1]⟩

/-- Whatever else than ABORT comes first is not taken for an abort: a sender that finds it cannot write hears nothing
and connects again. -/
theorem C96_no_false_abort (ver port maxRetries : Int) (eos : ErrCode) (mem : Bytes) (t : TState) (ht : t.state = .checkForAbort)
    (b : UInt8) (hb : b ≠ ABORT_CMD) (rest : Bytes) :
    ∃ t', hearRun ver port maxRetries eos mem 1 t (b :: rest) = .ok ([], t', rest) ∧ t'.state = .connect ∧
      t'.localErr = t.localErr ∧ t'.remoteErr = t.remoteErr := by
  refine ⟨{ t with state := .connect }, ?_, rfl, rfl, rfl⟩
  rw [hearRun_step (t' := { t with state := .connect }) (rest := rest) (ev := .gotAbort false) (hs := []) (by simp) ?_ ?_ 0]
  · rfl
  · rw [ht]; simp [hearStep, hearCheckAbort, readSome, hb]
  · unfold tStep; rw [ht]; simp

/-- Without unread heart beats a sender that finds it cannot write learns of the receiver's abort and of its
reason (unless that is the version). -/
theorem C96_abort_partial (ver port maxRetries : Int) (mem buf : Bytes) (hmem : 13 ≤ mem.length)
    (hb : 32768 ≤ buf.length)
    (t : TState) (ht : t.state = .checkForAbort) (v : Int) (code : Nat) (files : Int)
    (hm : (RMsg.abort v code files).WF) (hv : code ≠ eVERSION_MISMATCH) (rest : Bytes) :
    ∃ b, sendMsg ver buf (.abort v code files) = .ok b ∧
      hearRun ver port maxRetries eOK mem 2 t (b ++ rest) =
        .ok ([.abort v code files], { t with state := .finished, localErr := eABORT, remoteErr := code }, rest) := by
  have hbytes := sendAbort_bytes buf v code files (by omega)
  refine ⟨_, hbytes, ?_⟩
  have hx := fun (e : HearEnv) h h' => hearAbort_bytes ver e v code files hm.1 hm.2.1 hm.2.2.1 hm.2.2.2 h rest h'
  generalize hB : leBytes 4 v ++ ([UInt8.ofNat code] ++ leBytes 8 files) = B at *
  have hBl : B.length = 13 := by rw [← hB]; simp [leBytes_length]
  have a2 := hearRun_step (ver := ver) (port := port) (mr := maxRetries) (eos := eOK) (mem := mem)
    (t := t)
    (t' := { t with state := .processAbortCmd }) (inp := ABORT_CMD :: B ++ rest) (rest := B ++ rest)
    (ev := .gotAbort true) (hs := []) (by simp)
    (by
      rw [ht]
      simp [hearStep, hearCheckAbort, readSome])
    (by unfold tStep; rw [ht]; rfl) 1
  have a3 := hearRun_step (ver := ver) (port := port) (mr := maxRetries) (eos := eOK) (mem := mem)
    (t := { t with state := .processAbortCmd })
    (t' := { t with state := .finished, localErr := eABORT, remoteErr := code }) (inp := B ++ rest) (rest := rest)
    (ev := .abortRead code (decide (negotiateProtocol v ver = v))) (hs := [.abort v code files]) (by simp)
    (by
      show some (hearAbort _ _ _) = _
      rw [hx _ hmem (by simp; omega)])
    (by unfold tStep; simp only; rw [if_neg hv]) 0
  rw [show (2 : Nat) = 1 + 1 from rfl, a2, show (1 : Nat) = 0 + 1 from rfl, a3]
  rfl

/-- **Violated: a heart beat hides the receiver's abort.**  A sender that cannot write looks at one byte to see whether
the receiver has aborted.  If that byte is a heart beat it has not read yet, it does not look further: it reconnects, and
if the receiver is gone it ends with a connection error, never having learnt the reason that is there to be read. -/
theorem C96_violated_hidden (ver port maxRetries : Int) (mem buf : Bytes) (hb : 32768 ≤ buf.length)
    (t : TState) (ht : t.state = .checkForAbort)
    (hnp : t.noProgress < maxRetries) (v : Int) (code : Nat) (files : Int) (n : Nat) :
    ∃ b b', sendMsg ver buf (.abort v code files) = .ok b ∧
      sendMsgs ver [(buf, .heart), (buf, .abort v code files)] = .ok b' ∧
      hearRun ver port maxRetries eOK mem (n + 1) t b' = .ok ([], { t with state := .connect }, b) ∧
      tStep maxRetries { t with state := .connect } (.connect eOK eCONN_ERROR false) =
        some (.ok { t with state := .finished, localErr := eCONN_ERROR, hasSocket := false }) := by
  have hbytes : sendMsg ver buf (.abort v code files) = _ := sendAbort_bytes buf v code files (by omega)
  have hsend : sendMsgs ver [(buf, .heart), (buf, .abort v code files)] =
      .ok (HEART_BEAT_CMD :: ABORT_CMD :: (leBytes 4 v ++ ([UInt8.ofNat code] ++ leBytes 8 files))) := by
    simp only [sendMsgs, hbytes, show sendMsg ver buf .heart = .ok [HEART_BEAT_CMD] from rfl]
    simp
  refine ⟨_, _, hbytes, hsend, ?_, ?_⟩
  · rw [hearRun_step (t' := { t with state := .connect }) (ev := .gotAbort false) (hs := [])
      (rest := ABORT_CMD :: (leBytes 4 v ++ ([UInt8.ofNat code] ++ leBytes 8 files))) (by simp)
      (by
        rw [ht]
        simp [hearStep, hearCheckAbort, readSome, HEART_BEAT_CMD, ABORT_CMD])
      (by unfold tStep; rw [ht]; rfl) n, hearRun_stop (.inl rfl)]
    rfl
  · unfold tStep
    simp only [bne_self_eq_false, Bool.and_false, Bool.false_eq_true, if_false]
    rw [if_neg (by omega), if_neg (by decide), if_pos (by decide)]

/-- **Violated: the read of heart beats throws away what it does not expect.**  Between blocks of data the sender reads
everything there is, to take heart beats off the connection.  If the receiver's abort is among it, it is gone: the error
that the read reports is ignored by its callers, and a sender that looks for an abort afterwards finds nothing. -/
theorem C96_violated_swallowed (ver port maxRetries : Int) (mem buf : Bytes) (hb : 32768 ≤ buf.length)
    (t : TState) (ht : t.state = .checkForAbort) (v : Int) (code : Nat) (files : Int) (k n bufSize : Nat)
    (hbs : k + 14 ≤ bufSize) :
    ∃ b, sendMsgs ver (List.replicate k (buf, .heart) ++ [(buf, .abort v code files)]) = .ok b ∧
      readHeartBeats true true bufSize b.length b = (ePROTOCOL_ERROR, []) ∧
      hearRun ver port maxRetries eOK mem (n + 1) t [] = .ok ([], { t with state := .connect }, []) := by
  have hbytes : sendMsg ver buf (.abort v code files) = _ := sendAbort_bytes buf v code files (by omega)
  have hsend : sendMsgs ver (List.replicate k (buf, .heart) ++ [(buf, .abort v code files)]) =
      .ok (List.replicate k HEART_BEAT_CMD ++
        ABORT_CMD :: (leBytes 4 v ++ ([UInt8.ofNat code] ++ leBytes 8 files))) := by
    induction k with
    | zero => simp [sendMsgs, hbytes]
    | succ k ih =>
      rw [List.replicate_succ, List.cons_append]
      simp only [sendMsgs, sendMsg]
      rw [ih (by omega), List.replicate_succ]
      rfl
  refine ⟨_, hsend, ?_, ?_⟩
  · unfold readHeartBeats
    simp only [Bool.not_true, Bool.false_eq_true, if_false]
    generalize hB : List.replicate k HEART_BEAT_CMD ++
        ABORT_CMD :: (leBytes 4 v ++ ([UInt8.ofNat code] ++ leBytes 8 files)) = B
    have hlen : B.length = k + 14 := by rw [← hB]; simp [leBytes_length]
    have hr : readSome B bufSize B.length = (B, []) := by
      unfold readSome
      rw [show min bufSize B.length = B.length by omega]
      simp
    rw [hr]
    rw [if_neg (by intro h; simp only at h; rw [h] at hlen; simp at hlen)]
    have : B.all (· == HEART_BEAT_CMD) = false := by
      rw [← hB, List.all_append, List.all_cons]
      have : (ABORT_CMD == HEART_BEAT_CMD) = false := by decide
      rw [this]; simp
    rw [this]
    rfl
  · rw [hearRun_step (t' := { t with state := .connect }) (ev := .gotAbort false) (hs := [])
      (rest := []) (by rw [ht]; simp)
      (by
        rw [ht]
        simp [hearStep, hearCheckAbort, readSome])
      (by unfold tStep; rw [ht]; rfl) n, hearRun_stop (.inl rfl)]
    rfl

theorem durationMs_small (d : Int) (h0 : 0 ≤ d) (h1 : d < 2 ^ 31) : durationMs d = d := by
  unfold durationMs toI32
  omega

/-- `ts` are times of calls, none earlier than the one before and none more than `g` later. -/
def Calls (g : Int) : Int → List Int → Prop
  | _, [] => True
  | t0, t :: ts => t0 ≤ t ∧ t ≤ t0 + g ∧ Calls g t ts

theorem calls_ge {g t0 : Int} {ts : List Int} (h : Calls g t0 ts) : ∀ t ∈ ts, t0 ≤ t := by
  induction ts generalizing t0 with
  | nil => simp
  | cons a ts ih =>
    intro t ht
    obtain ⟨h1, _, h3⟩ := h
    rcases List.mem_cons.1 ht with rfl | ht
    · exact h1
    · have := ih h3 t ht; omega

theorem interval_eq (R : Int) (h0 : 0 < R) (h1 : R ≤ int32Max) : toI32 (Int.tdiv R 5) = R / 5 := by
  have e2 : int32Max = 2147483647 := rfl
  rw [Int.tdiv_eq_ediv_of_nonneg (by omega)]
  unfold toI32
  omega

theorem patient_tail {R g x : Int} (hR : 0 < R) (hR' : R ≤ int32Max) (hg : R / 5 + g ≤ R) :
    ∀ (ts : List Int) (last t : Int), last ≤ x → x < t → t - last ≤ R / 5 → Calls g t ts →
      (∀ u ∈ ts, u - last < 2 ^ 31) → (∃ u ∈ ts, x + R ≤ u) → ∃ b ∈ beatTimes R last ts, x < b ∧ b ≤ x + R := by
  intro ts
  induction ts with
  | nil => intro last t _ _ _ _ _ h; simp at h
  | cons a ts ih =>
    intro last t h1 h2 h3 hc hs hex
    obtain ⟨c1, c2, c3⟩ := hc
    have hd := durationMs_small (a - last) (by omega) (hs a List.mem_cons_self)
    unfold beatTimes
    rw [hd, interval_eq R hR hR']
    by_cases hb : a - last ≤ R / 5
    · rw [if_pos hb]
      refine ih last a h1 (by omega) hb c3 (fun u hu => hs u (List.mem_cons_of_mem _ hu)) ?_
      obtain ⟨u, hu, hux⟩ := hex
      rcases List.mem_cons.1 hu with rfl | hu
      · omega
      · exact ⟨u, hu, hux⟩
    · rw [if_neg hb]
      exact ⟨a, List.mem_cons_self, by omega, by omega⟩

/-- **Heart beats keep the sender patient.**  Let the receiver come by the places where it may send a heart beat at the times
`ts`, with never more than `g` milliseconds in between, and let `g` be at most four fifths of the sender's read
timeout `R`.  Then from whatever moment `x` the sender waits for a byte, while the receiver is still at work it gets one
within its timeout, however long the receiver takes in all.  (`last`: last heart beat, or the creation of the thread; for what
happens when that is long ago see `C96_violated_idle`.) -/
theorem C96_patient (R g : Int) (hR : 0 < R) (hR' : R ≤ int32Max) (hg : R / 5 + g ≤ R) (last t0 : Int) (ts : List Int)
    (hl : last ≤ t0) (hc : Calls g t0 ts) (hs : ∀ t ∈ ts, t - last < 2 ^ 31) (x : Int) (hx : t0 ≤ x)
    (hex : ∃ t ∈ ts, x + R ≤ t) : ∃ b ∈ beatTimes R last ts, x < b ∧ b ≤ x + R := by
  induction ts generalizing last t0 with
  | nil => simp at hex
  | cons a ts ih =>
    obtain ⟨c1, c2, c3⟩ := hc
    have hge := calls_ge c3
    have hd := durationMs_small (a - last) (by omega) (hs a List.mem_cons_self)
    have htl : ∀ t ∈ ts, t - last < 2 ^ 31 := fun u hu => hs u (List.mem_cons_of_mem _ hu)
    unfold beatTimes
    rw [hd, interval_eq R hR hR']
    by_cases hax : a ≤ x
    · have hex' : ∃ t ∈ ts, x + R ≤ t := by
        obtain ⟨u, hu, hux⟩ := hex
        rcases List.mem_cons.1 hu with rfl | hu
        · omega
        · exact ⟨u, hu, hux⟩
      by_cases hb : a - last ≤ R / 5
      · rw [if_pos hb]
        exact ih last a (by omega) c3 htl hax hex'
      · rw [if_neg hb]
        obtain ⟨b, hb1, hb2⟩ := ih a a (by omega) c3 (fun u hu => by have := htl u hu; omega) hax hex'
        exact ⟨b, List.mem_cons_of_mem _ hb1, hb2⟩
    · by_cases hb : a - last ≤ R / 5
      · rw [if_pos hb]
        refine patient_tail hR hR' hg ts last a (by omega) (by omega) hb c3 htl ?_
        obtain ⟨u, hu, hux⟩ := hex
        rcases List.mem_cons.1 hu with rfl | hu
        · omega
        · exact ⟨u, hu, hux⟩
      · rw [if_neg hb]
        exact ⟨a, List.mem_cons_self, by omega, by omega⟩

/-- Heart beats are few: more than a fifth of the read timeout passes between one and the next. -/
theorem C96_few (R g : Int) (hR : 0 < R) (hR' : R ≤ int32Max) (last t0 : Int) (ts : List Int)
    (hl : last ≤ t0) (hc : Calls g t0 ts) (hs : ∀ t ∈ ts, t - last < 2 ^ 31) :
    (last :: beatTimes R last ts).Pairwise (fun a b => R / 5 < b - a) ∧ (beatTimes R last ts).Sublist ts := by
  induction ts generalizing last t0 with
  | nil => exact ⟨List.pairwise_singleton _ _, List.Sublist.refl _⟩
  | cons a ts ih =>
    obtain ⟨c1, c2, c3⟩ := hc
    have hd := durationMs_small (a - last) (by omega) (hs a List.mem_cons_self)
    have htl : ∀ t ∈ ts, t - last < 2 ^ 31 := fun u hu => hs u (List.mem_cons_of_mem _ hu)
    unfold beatTimes
    rw [hd, interval_eq R hR hR']
    by_cases hb : a - last ≤ R / 5
    · rw [if_pos hb]
      obtain ⟨h1, h2⟩ := ih last a (by omega) c3 htl
      exact ⟨h1, h2.cons _⟩
    · rw [if_neg hb]
      obtain ⟨h1, h2⟩ := ih a a (by omega) c3 (fun u hu => by have := htl u hu; omega)
      refine ⟨List.pairwise_cons.2 ⟨fun b hb' => ?_, h1⟩, h2.cons_cons _⟩
      rcases List.mem_cons.1 hb' with rfl | hb'
      · omega
      · have := (List.pairwise_cons.1 h1).1 b hb'
        omega

/-- **Violated: a receiver that was idle long enough sends no heart beats.**  Milliseconds since the last heart beat are counted in an
`int`; a receiver that has waited for its next transfer for 25 days (2^31 ms) counts a negative number, and sends none for as
long again, whatever the timeout and however slow it is. -/
theorem C96_violated_idle (R : Int) (hR : 0 < R) (hR' : R ≤ int32Max) (last : Int) (ts : List Int)
    (h : ∀ t ∈ ts, 2 ^ 31 ≤ t - last ∧ t - last < 2 ^ 32) : beatTimes R last ts = [] := by
  induction ts with
  | nil => rfl
  | cons a ts ih =>
    unfold beatTimes
    have ha := h a List.mem_cons_self
    have : durationMs (a - last) < 0 := by
      unfold durationMs toI32
      omega
    rw [interval_eq R hR hR', if_pos (by omega)]
    exact ih fun u hu => h u (List.mem_cons_of_mem _ hu)

/-- The checkpoint with which a receiver greets a sender that lost its connection is read whole, and nothing after it: what the
history makes of it decides, unless it is for another port. -/
theorem C96_local_checkpoint (ver port : Int) (res : CpRes) (buf : Bytes) (hb : 60 ≤ buf.length) (c : Checkpoint)
    (hc : c.WF) (w : Bytes) (av : Nat) (hav : 60 ≤ av) :
    ∃ b, sendMsg ver buf (.localCp c) = .ok b ∧ hearLocalCp ver port res av (b ++ w) =
      .ok (.checkpoint (if c.port = port then .set res else .malformed), w) := by
  obtain ⟨junk, hs, hl, he⟩ := sendLocalCp_bytes ver buf c hc hb
  refine ⟨_, hs, ?_⟩
  obtain ⟨o, hd⟩ := decodeCheckpoints_bytes ver [c] (by intro x hx; rw [List.mem_singleton.1 hx]; exact hc) (by simp) junk
    ((getMaxLocalCheckpointLength ver).toNat) (by rw [he, ← hl])
  rw [he] at hd
  have hM : getMaxLocalCheckpointLength ver ≤ 60 := by
    unfold getMaxLocalCheckpointLength; split <;> split <;> omega
  unfold hearLocalCp
  simp only
  rw [readSome_app' _ w _ av hl.symm (by omega)]
  simp only
  rw [if_neg (by rw [hl]; simp), hd]
  simp only [List.map_cons, List.map_nil]
  have : (c.carried ver).port = c.port := rfl
  rw [this]
  split <;> rfl

/-- **Violated: what the receiver says is trusted.**  Three bytes of a receiver that is not ours make the sender declare an array of
negative size; a command to abort with a negative version makes it use variables that were never set.  For every list of heart beats
before. -/
theorem C96_violated_hostile (ver port maxRetries : Int) (mem : Bytes) (hmem : 13 ≤ mem.length) (k : Nat) :
    hearRun ver port maxRetries eOK mem (k + 2) { state := .readReceiverCmd }
      (List.replicate k HEART_BEAT_CMD ++ [ERR_CMD, 0xff, 0xff]) = .error .ub ∧
    hearRun ver port maxRetries eOK mem (k + 2) { state := .readReceiverCmd }
      (List.replicate k HEART_BEAT_CMD ++ ABORT_CMD :: List.replicate 13 0xff) = .error .ub := by
  have hk : ∀ (w : Bytes) (k n : Nat), hearRun ver port maxRetries eOK mem (k + n) { state := .readReceiverCmd }
      (List.replicate k HEART_BEAT_CMD ++ w) = hearRun ver port maxRetries eOK mem n { state := .readReceiverCmd } w := by
    intro w k
    induction k with
    | zero => intro n; simp
    | succ k ih =>
      intro n
      obtain ⟨b, hb, j, t', _, _, _, hh, hstep⟩ := msg_step ver port maxRetries eOK mem hmem { state := .readReceiverCmd } rfl
        (List.replicate 40000 0) (by rw [List.length_replicate]; decide) (by rw [List.length_replicate]; decide) .heart trivial
      obtain ⟨rfl, rfl⟩ := hh rfl
      obtain rfl := (Except.ok.inj hb)
      have := hstep (k + n) (List.replicate k HEART_BEAT_CMD ++ w)
      rw [show (heardOf ver .heart).toList = [] from rfl, prep_nil, ih] at this
      rw [← this, show k + 1 + n = k + n + 1 by omega]
      rfl
  rw [hk, hk]
  constructor
  · rfl
  · have h1 := hearRun_step (ver := ver) (port := port) (mr := maxRetries) (eos := eOK) (mem := mem)
      (t := { state := .readReceiverCmd }) (t' := { state := .processAbortCmd })
      (inp := ABORT_CMD :: List.replicate 13 0xff) (rest := List.replicate 13 0xff) (ev := .cmdAbort) (hs := [])
      (by simp) rfl rfl 1
    rw [show (2 : Nat) = 1 + 1 from rfl, h1]
    have hd : hearAbort ver { a1 := 13, a2 := 13, eos := eOK, mem := mem } (List.replicate 13 0xff) = .error .ub := by
      unfold hearAbort
      have hr : readSome (List.replicate 13 (0xff : UInt8)) kAbortLength.toNat 13 = (List.replicate 13 0xff, []) := by decide
      simp only
      rw [hr]
      simp only
      rw [if_neg (by decide)]
      have hk : kAbortLength = 13 := rfl
      have hl : (List.replicate 13 (0xff : UInt8) ++ mem.drop (List.replicate 13 (0xff : UInt8)).length).length = mem.length := by
        simp; omega
      have : decodeAbort (List.replicate 13 (0xff : UInt8) ++ mem.drop (List.replicate 13 (0xff : UInt8)).length) 0 mem.length =
          .ok (none, 0) := by
        unfold decodeAbort
        rw [if_neg (by omega), makeByteRange_ok _ _ _ (by omega) (by omega) (by omega)]
        conv => lhs; rw [← hl, seg_all]
        rfl
      rw [this]
    unfold hearRun
    rw [if_neg (by simp)]
    have hst : hearStep ver port ⟨(List.replicate 13 (0xff : UInt8)).length, (List.replicate 13 (0xff : UInt8)).length,
        eSOCKET_READ_ERROR, eOK, mem⟩ SState.processAbortCmd (List.replicate 13 0xff) = some (.error .ub) := by
      show some (hearAbort _ _ _) = _
      rw [show (List.replicate 13 (0xff : UInt8)).length = 13 from rfl, hd]
    rw [hst]
    rfl

/-! ### Examples -/

/-- Heart beats among a spurious local checkpoint, a WAIT and a list of checkpoints. -/
example : AllWF [(List.replicate 40000 0, .heart), (List.replicate 40000 7, .localCp ⟨22356, 0, 0, 0, 0, false⟩),
    (List.replicate 40000 0, .wait), (List.replicate 40000 0, .heart),
    (List.replicate 40000 0, .globalCp [⟨22357, 3, 2, 100, 55, true⟩]), (List.replicate 40000 0, .heart)] := by
  intro p hp
  simp only [List.mem_cons, List.not_mem_nil, or_false] at hp
  have hl : ∀ b : UInt8, 32768 ≤ (List.replicate 40000 b).length ∧ ((List.replicate 40000 b).length : Int) ≤ int64Max := by
    intro b; rw [List.length_replicate]; decide
  rcases hp with rfl | rfl | rfl | rfl | rfl | rfl <;> refine ⟨?_, hl _⟩ <;> simp only [RMsg.WF]
  · unfold Checkpoint.WF; decide
  · refine ⟨fun c hc => ?_, by decide⟩
    rw [List.mem_singleton.1 hc]
    unfold Checkpoint.WF; decide

/-- The sender, told to wait and then of a lost connection of another thread, with heart beats in between. -/
example : hearRun 30 22356 10 eOK (List.replicate 13 0) 12 { state := .readReceiverCmd }
    ([HEART_BEAT_CMD, WAIT_CMD, HEART_BEAT_CMD, HEART_BEAT_CMD, ERR_CMD, 8, 0] ++
      [1, 0xd5, 0xae, 1, 3, 55, 2, 100] ++ [HEART_BEAT_CMD]) =
    .ok ([.wait, .checkpoints [⟨22357, 3, 2, 100, 55, true⟩]], { state := .sendBlocks }, [HEART_BEAT_CMD]) := by
  decide +kernel

/-- The receiver could not write a file, and says so: heard without, lost with one unread heart beat. -/
example :
    hearRun 30 22356 10 eOK (List.replicate 13 0) 12 { state := .checkForAbort, localErr := eSOCKET_WRITE_ERROR, hasSocket := true }
      ([ABORT_CMD, 30, 0, 0, 0, 16] ++ [3, 0, 0, 0, 0, 0, 0, 0]) =
      .ok ([.abort 30 16 3], { state := .finished, localErr := eABORT, remoteErr := 16, hasSocket := true }, []) ∧
    hearRun 30 22356 10 eOK (List.replicate 13 0) 12 { state := .checkForAbort, localErr := eSOCKET_WRITE_ERROR, hasSocket := true }
      ([HEART_BEAT_CMD, ABORT_CMD, 30, 0, 0, 0, 16] ++ [3, 0, 0, 0, 0, 0, 0, 0]) =
      .ok ([], { state := .connect, localErr := eSOCKET_WRITE_ERROR, hasSocket := true },
        [ABORT_CMD, 30, 0, 0, 0, 16] ++ [3, 0, 0, 0, 0, 0, 0, 0]) := by
  decide +kernel

/-- A receiver that is slow: heart beats with a read timeout of 5000. -/
example : beatTimes 5000 0 [400, 900, 1300, 2100, 2400, 3900] = [1300, 2400, 3900] ∧
    Calls 1500 0 [400, 900, 1300, 2100, 2400, 3900] ∧ ((5000 : Int) / 5 + 1500 ≤ 5000) := by
  refine ⟨by decide +kernel, ?_, by decide⟩
  simp only [Calls]; decide

end Wdt
