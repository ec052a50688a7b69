import Verif.Model.ThreadCalls
import Verif.Props.SocketLife
/-
C113: the threads call their sockets in the order that C111 needs.
-/
namespace Wdt

theorem slOrder_append : ∀ (a b : List SlOp) (ph : Option (Bool × Bool)),
    SlOrder ph (a ++ b) ↔ SlOrder ph a ∧ SlOrder (a.foldl slPhase ph) b := by
  intro a
  induction a with
  | nil => intro b ph; simp [SlOrder]
  | cons op a ih =>
    intro b ph
    rcases ph with _ | ⟨r, w⟩ <;> cases op <;> simp [SlOrder, slPhase, ih, and_assoc]

/-- only reads and writes of at least one byte -/
def SlIo (l : List SlOp) : Prop := ∀ op ∈ l, (∃ n, 0 < n ∧ op = .read n) ∨ ∃ n, 0 < n ∧ op = .write n

theorem SlIo.nil : SlIo [] := fun _ h => by simp at h
theorem SlIo.read {n : Int} {l : List SlOp} (h : 0 < n) (hl : SlIo l) : SlIo (.read n :: l) := by
  intro op hop
  rcases List.mem_cons.1 hop with e | e
  · exact .inl ⟨n, h, e⟩
  · exact hl op e
theorem SlIo.write {n : Int} {l : List SlOp} (h : 0 < n) (hl : SlIo l) : SlIo (.write n :: l) := by
  intro op hop
  rcases List.mem_cons.1 hop with e | e
  · exact .inr ⟨n, h, e⟩
  · exact hl op e
theorem SlIo.append {a b : List SlOp} (ha : SlIo a) (hb : SlIo b) : SlIo (a ++ b) := by
  intro op hop
  rcases List.mem_append.1 hop with e | e
  · exact ha op e
  · exact hb op e

/-- the phase of an open connection -/
abbrev slOpen : Option (Bool × Bool) := some (false, false)

theorem SlIo.order : ∀ (l : List SlOp), SlIo l → SlOrder slOpen l ∧ l.foldl slPhase slOpen = slOpen := by
  intro l
  induction l with
  | nil => intro _; exact ⟨trivial, rfl⟩
  | cons op l ih =>
    intro h
    obtain ⟨h1, h2⟩ := ih (fun o ho => h o (by simp [ho]))
    rcases h op (by simp) with ⟨n, hn, e⟩ | ⟨n, hn, e⟩ <;> subst e <;> exact ⟨⟨hn, rfl, h1⟩, h2⟩

theorem close_order (ph : Option (Bool × Bool)) : SlOrder ph [.close false] ∧ slPhase ph (.close false) = none := by
  rcases ph with _ | ⟨r, w⟩ <;> exact ⟨trivial, rfl⟩

theorem localCp_pos (ver : Int) : 1 < getMaxLocalCheckpointLength ver := by
  unfold getMaxLocalCheckpointLength
  split <;> split <;> decide

theorem SlIo.replicate (op : SlOp) (k : Nat) (h : SlIo [op]) : SlIo (List.replicate k op) := by
  intro o ho
  rw [List.eq_of_mem_replicate ho]
  exact h op (by simp)

/-- the states in which a sender uses a connection -/
def SdSt.busy : SdSt → Bool
  | .connect | .procMismatch | .fin => false
  | _ => true

theorem sdDial_order {l : List SlOp} {b : Bool} (h : SdDial l b) :
    SlOrder none l ∧ l.foldl slPhase none = if b then slOpen else none := by
  induction h with
  | fail => exact ⟨trivial, rfl⟩
  | ok fd h => exact ⟨⟨h, trivial⟩, rfl⟩
  | retry fd h _ ih => exact ⟨⟨h, ih.1⟩, ih.2⟩

theorem sdBody_io {B : Int} (hB : 0 < B) {l : List SlOp} (h : SdBody B l) : SlIo l := by
  induction h with
  | stop => exact .nil
  | beat _ ih => exact ih.read hB
  | data n hn _ ih => exact ih.write hn
  | footer n hn => exact SlIo.nil.write hn

theorem sdChunkLoop_io {L : Int → Prop} (hL : ∀ n, L n → 0 < n) {l : List SlOp} {st : SdSt} (h : SdChunkLoop L l st) :
    SlIo l ∧ (st = .fin ∨ st = .checkAbort ∨ st = .sendBlocks) := by
  have h4 : (0 : Int) < 4 := by decide
  have h1 : (0 : Int) < 1 := by decide
  induction h with
  | tooMany => exact ⟨.nil, .inl rfl⟩
  | lenErr => exact ⟨SlIo.nil.read h4, .inr (.inl rfl)⟩
  | dataErr n h => exact ⟨(SlIo.nil.read (hL n h)).read h4, .inr (.inl rfl)⟩
  | badList n h => exact ⟨(SlIo.nil.read (hL n h)).read h4, .inl rfl⟩
  | more n h _ ih => exact ⟨(ih.1.read (hL n h)).read h4, ih.2⟩
  | ackErr => exact ⟨SlIo.nil.write h1, .inr (.inl rfl)⟩
  | done => exact ⟨SlIo.nil.write h1, .inr (.inr rfl)⟩

/-- A state function on an open connection keeps the order, and leaves the connection open if the next
state uses it. -/
theorem sdStep_order {ver B : Int} {L : Int → Prop} (hB : 0 < B) (hL : ∀ n, L n → 0 < n) {st st' : SdSt} {ops : List SlOp}
    (h : SdStep ver B L st ops st') :
    st.busy = true ∧ SlOrder slOpen ops ∧ (st'.busy = true → ops.foldl slPhase slOpen = slOpen) := by
  have h1 : (0 : Int) < 1 := by decide
  have hc := localCp_pos ver
  have io : ∀ {l : List SlOp}, SlIo l → SlOrder slOpen l ∧ (st'.busy = true → l.foldl slPhase slOpen = slOpen) := fun h =>
    ⟨(SlIo.order _ h).1, fun _ => (SlIo.order _ h).2⟩
  cases h with
  | readLocalCp => exact ⟨rfl, io (SlIo.nil.read (by omega))⟩
  | sendSettings n h => exact ⟨rfl, io (SlIo.nil.write h)⟩
  | blocksSize => exact ⟨rfl, io .nil⟩
  | blocksNone b =>
    refine ⟨rfl, io ?_⟩
    cases b
    · exact .nil
    · exact SlIo.nil.read hB
  | block n h hl => exact ⟨rfl, io ((sdBody_io hB hl).write h)⟩
  | size n h => exact ⟨rfl, io (SlIo.nil.write h)⟩
  | sendDone => exact ⟨rfl, io (SlIo.nil.write (by decide))⟩
  | checkAbort => exact ⟨rfl, io (SlIo.nil.read h1)⟩
  | chunksFirst => exact ⟨rfl, io (SlIo.nil.read h1)⟩
  | chunksCp => exact ⟨rfl, io ((SlIo.nil.read (by omega)).read h1)⟩
  | chunksHead => exact ⟨rfl, io ((SlIo.nil.read (by decide)).read h1)⟩
  | chunksList h => exact ⟨rfl, io (((sdChunkLoop_io hL h).1.read (by decide)).read h1)⟩
  | readCmd k => exact ⟨rfl, io (SlIo.replicate _ _ (SlIo.nil.read h1))⟩
  | readCmdCp k => exact ⟨rfl, io ((SlIo.replicate _ _ (SlIo.nil.read h1)).append (SlIo.nil.read (by omega)))⟩
  | procDone st hs =>
    refine ⟨rfl, ⟨h1, rfl, trivial⟩, ?_⟩
    intro hb
    rcases hs with rfl | rfl <;> cases hb
  | procWait => exact ⟨rfl, io .nil⟩
  | procErrLen => exact ⟨rfl, io (SlIo.nil.read (by decide))⟩
  | procErr n h => exact ⟨rfl, io ((SlIo.nil.read (hL n h)).read (by decide))⟩
  | procAbort => exact ⟨rfl, io (SlIo.nil.read (by decide))⟩

/-- what holds of a sender thread at all times -/
structure SdInv (c : SdConf) : Prop where
  cur : ∀ l, c.cur = some l → SlOrder none l ∧ (c.st.busy = true → l.foldl slPhase none = slOpen)
  has : c.st.busy = true → c.cur ≠ none
  old : ∀ l ∈ c.old, SlOrder none l

theorem close_snoc {l : List SlOp} (h : SlOrder none l) : SlOrder none (l ++ [.close false]) :=
  (slOrder_append _ _ _).2 ⟨h, (close_order _).1⟩

theorem SdInv.gone_order {c : SdConf} (hcur : ∀ l, c.cur = some l → SlOrder none l) (hold : ∀ l ∈ c.old, SlOrder none l) :
    ∀ l ∈ c.gone, SlOrder none l := by
  intro l hl
  unfold SdConf.gone at hl
  split at hl
  · exact hold l hl
  · rename_i l' e
    rcases List.mem_cons.1 hl with rfl | h
    · exact close_snoc (hcur _ e)
    · exact hold l h

theorem SdInv.closed_order {c : SdConf} (h : SdInv c) :
    ∀ l ∈ ({ c with cur := c.cur.map (· ++ [.close false]) } : SdConf).gone, SlOrder none l := by
  refine SdInv.gone_order ?_ h.old
  intro l hl
  dsimp only at hl
  rw [Option.map_eq_some_iff] at hl
  obtain ⟨l', e, rfl⟩ := hl
  exact close_snoc (h.cur _ e).1

theorem sdMove_inv {ver B : Int} {L : Int → Prop} (hB : 0 < B) (hL : ∀ n, L n → 0 < n) {c d : SdConf} (h : SdMove ver B L c d)
    (hi : SdInv c) : SdInv d := by
  cases h with
  | step hc h =>
    obtain ⟨h1, h2, h3⟩ := sdStep_order hB hL h
    obtain ⟨h4, h5⟩ := hi.cur _ hc
    refine ⟨?_, fun _ => by simp, hi.old⟩
    rintro l e
    cases e
    refine ⟨(slOrder_append _ _ _).2 ⟨h4, ?_⟩, ?_⟩
    · rw [h5 h1]; exact h2
    · intro hb
      rw [List.foldl_append, h5 h1]
      exact h3 hb
  | connFinal hc h => exact ⟨fun l e => ⟨(hi.cur l e).1, fun hb => by cases hb⟩, fun hb => (by cases hb), hi.old⟩
  | connNoProgress hc h =>
    refine ⟨?_, fun hb => (by cases hb), hi.old⟩
    rintro l e
    cases e
    exact ⟨close_snoc (hi.cur _ hc).1, fun hb => by cases hb⟩
  | connOk h hl st hs =>
    refine ⟨?_, fun _ => by simp, hi.closed_order⟩
    rintro l e
    cases e
    exact ⟨(sdDial_order hl).1, fun _ => (sdDial_order hl).2⟩
  | connFail h hl st hs =>
    refine ⟨fun l e => by simp at e, ?_, ?_⟩
    · rcases hs with rfl | rfl <;> intro hb <;> cases hb
    · intro l e
      rcases List.mem_cons.1 e with rfl | e
      · exact close_snoc (sdDial_order hl).1
      · exact hi.closed_order l e
  | mismatch h st hs =>
    have hb : st.busy = false := by rcases hs with rfl | rfl <;> rfl
    exact ⟨fun l e => ⟨(hi.cur l e).1, fun hb' => by simp [hb] at hb'⟩, fun hb' => (by simp [hb] at hb'), hi.old⟩
  | aborted h st hs =>
    have hb : st.busy = false := by rcases hs with rfl | rfl <;> rfl
    exact ⟨fun l e => ⟨(hi.cur l e).1, fun hb' => by simp [hb] at hb'⟩, fun hb' => (by simp [hb] at hb'), hi.old⟩
  | finish h =>
    refine ⟨fun l e => by simp at e, fun hb => ?_, SdInv.gone_order (fun l e => (hi.cur l e).1) hi.old⟩
    dsimp only at hb
    rw [h] at hb
    cases hb

theorem sdReach_inv {ver B : Int} {L : Int → Prop} (hB : 0 < B) (hL : ∀ n, L n → 0 < n) {c : SdConf} (h : SdReach ver B L c) :
    SdInv c := by
  induction h with
  | start => exact ⟨fun l e => by simp at e, fun hb => (by cases hb), fun l e => by simp at e⟩
  | move _ h ih => exact sdMove_inv hB hL h ih

/-- C113: a sender thread, whatever its receiver answers (with positive lengths, otherwise see C107),
whatever fails and whenever the transfer is aborted or starts again with another protocol version, never
uses a socket it does not have, and calls each of its sockets in an order in which, with any network and
OpenSSL, every call returns and none ends the process in a check. -/
theorem C113_sender_partial {ver B : Int} {L : Int → Prop} (hB : 0 < B) (hL : ∀ n, L n → 0 < n) {c : SdConf} (h : SdReach ver B L c)
    (E : Nat → SlEv) (enc : Int) (secret plain : Bool) (iv tag : Int) (hs : enc ≠ 0 → secret = true) :
    (c.st ≠ .connect → c.st ≠ .procMismatch → c.st ≠ .fin → c.cur ≠ none) ∧
    ∀ ops, c.cur = some ops ∨ ops ∈ c.old →
      ∃ rs s, slRun E ops (slNew enc secret plain iv tag) = .ok (rs, s) ∧ rs.length = ops.length := by
  have hi := sdReach_inv hB hL h
  refine ⟨fun h1 h2 h3 => hi.has ?_, ?_⟩
  · generalize c.st = st at h1 h2 h3
    cases st <;> first | rfl | exact absurd rfl h1 | exact absurd rfl h2 | exact absurd rfl h3
  · rintro ops (h | h)
    · exact C111_no_check E enc secret plain iv tag hs ops (hi.cur _ h).1
    · exact C111_no_check E enc secret plain iv tag hs ops (hi.old _ h)

/-- C113: every socket object a sender thread no longer has is without a connection. -/
theorem C113_sender_closes {ver B : Int} {L : Int → Prop} (hB : 0 < B) (hL : ∀ n, L n → 0 < n) {c : SdConf} (h : SdReach ver B L c)
    (E : Nat → SlEv) (enc : Int) (secret plain : Bool) (iv tag : Int) (hs : enc ≠ 0 → secret = true) :
    ∀ ops ∈ c.old, ∃ rs s, slRun E ops (slNew enc secret plain iv tag) = .ok (rs, s) ∧ s.fd < 0 := by
  have hi := sdReach_inv hB hL h
  have hend : ∀ ops ∈ c.old, ∃ l, ops = l ++ [.close false] := by
    clear hi
    have hg : ∀ d : SdConf, (∀ ops ∈ d.old, ∃ l, ops = l ++ [.close false]) → ∀ ops ∈ d.gone, ∃ l, ops = l ++ [.close false] := by
      intro d hd ops ho
      unfold SdConf.gone at ho
      split at ho
      · exact hd ops ho
      · rcases List.mem_cons.1 ho with rfl | ho
        · exact ⟨_, rfl⟩
        · exact hd ops ho
    induction h with
    | start => intro _ h; simp at h
    | move _ h ih =>
      cases h with
      | step => exact ih
      | connFinal => exact ih
      | connNoProgress => exact ih
      | connOk => exact hg ⟨_, _, _⟩ ih
      | connFail h hl st hs =>
        intro ops ho
        rcases List.mem_cons.1 ho with rfl | ho
        · exact ⟨_, rfl⟩
        · exact hg { st := _, cur := Option.map (· ++ [.close false]) _, old := _ } ih ops ho
      | mismatch => exact ih
      | aborted => exact ih
      | finish => exact hg _ ih
  intro ops ho
  obtain ⟨l, rfl⟩ := hend ops ho
  obtain ⟨rs, s, h1, h2, _⟩ := C111_next_connection E enc secret plain iv tag hs l [] false (by simpa using hi.old _ ho)
  exact ⟨rs, s, h1, h2⟩

/-- the states in which a receiver uses a connection -/
def RvSt.busy : RvSt → Bool
  | .listen | .acceptFirst | .acceptTimeout | .finishErr | .fin => false
  | _ => true

theorem rvAtLeast_io {max k len : Int} (hk : k ≤ max) {l : List SlOp} (h : RvAtLeast max k len l) : SlIo l := by
  induction h with
  | enough => exact .nil
  | fail h => exact SlIo.nil.read (by omega)
  | more h n hn _ ih => exact ih.read (by omega)

theorem rvBeat_io (b : Bool) : SlIo (rvBeat b) := by
  cases b
  · exact .nil
  · exact SlIo.nil.write (by decide)

theorem rvData_io {B : Int} (hB : 0 < B) {left : Int} {l : List SlOp} (h : RvData B left l) : SlIo l := by
  induction h with
  | stop => exact .nil
  | eof h b => exact (rvBeat_io b).append (SlIo.nil.read (by omega))
  | more h b b' n _ ih => exact (((rvBeat_io b).append (SlIo.nil.read (by omega))).append (rvBeat_io b')).append ih

theorem rvLists_io {l : List SlOp} (h : RvLists l) : SlIo l := by
  induction h with
  | stop => exact .nil
  | more n h _ ih => exact ih.write (by omega)

/-- A state function on an open connection keeps the order, and leaves the connection open if the next
state uses it. -/
theorem rvStep_order {ver B : Int} (hB : 0 < B) {st st' : RvSt} {ops : List SlOp} (h : RvStep ver B st ops st') :
    st.busy = true ∧ SlOrder slOpen ops ∧ (st'.busy = true → ops.foldl slPhase slOpen = slOpen) := by
  have h1 : (0 : Int) < 1 := by decide
  have hc := localCp_pos ver
  have io : ∀ {l : List SlOp}, SlIo l → SlOrder slOpen l ∧ (st'.busy = true → l.foldl slPhase slOpen = slOpen) := fun h =>
    ⟨(SlIo.order _ h).1, fun _ => (SlIo.order _ h).2⟩
  have w1 : SlIo [.write 1] := SlIo.nil.write h1
  cases h with
  | sendLocalCp => exact ⟨rfl, io (SlIo.nil.write (by omega))⟩
  | readNext off len hb h0 h => exact ⟨rfl, io (rvAtLeast_io hb h)⟩
  | procSettings => exact ⟨rfl, io .nil⟩
  | fileBad => exact ⟨rfl, io .nil⟩
  | fileHead b m k len hk h => exact ⟨rfl, io ((rvBeat_io b).append (rvAtLeast_io hk h))⟩
  | fileData b m k len hk h left hd => exact ⟨rfl, io (((rvBeat_io b).append (rvAtLeast_io hk h)).append (rvData_io hB hd))⟩
  | fileFooter b b' m k len hk h left hd off len' hb hf =>
    exact ⟨rfl, io (((((rvBeat_io b).append (rvAtLeast_io hk h)).append (rvData_io hB hd)).append (rvBeat_io b')).append
      (rvAtLeast_io hb hf))⟩
  | procDone => exact ⟨rfl, io .nil⟩
  | procSize => exact ⟨rfl, io .nil⟩
  | chunksWait k => exact ⟨rfl, io (SlIo.replicate _ _ w1)⟩
  | chunksFail k n hn h => exact ⟨rfl, io ((SlIo.replicate _ _ w1).append ((rvLists_io h).write hn))⟩
  | chunksSent k n hn h => exact ⟨rfl, io (((SlIo.replicate _ _ w1).append ((rvLists_io h).write hn)).append (SlIo.nil.read h1))⟩
  | globalCp n hn => exact ⟨rfl, io (SlIo.nil.write (by omega))⟩
  | sendAbort n hn st hs =>
    refine ⟨rfl, ⟨hn, rfl, trivial⟩, ?_⟩
    intro hb
    rcases hs with rfl | rfl <;> cases hb
  | doneWrite => exact ⟨rfl, io w1⟩
  | doneRead => exact ⟨rfl, io ((SlIo.nil.read h1).write h1)⟩
  | doneEof => exact ⟨rfl, ⟨h1, rfl, h1, rfl, trivial⟩, fun hb => by cases hb⟩
  | done => exact ⟨rfl, ⟨h1, rfl, h1, rfl, trivial⟩, fun hb => by cases hb⟩
  | waitFinish k => exact ⟨rfl, io (SlIo.replicate _ _ w1)⟩
  | waitFail k => exact ⟨rfl, io (SlIo.replicate _ _ w1)⟩

theorem rvReach_inv {ver B : Int} (hB : 0 < B) {st : RvSt} {l : List SlOp} (h : RvReach ver B st l) :
    SlOrder none l ∧ (st.busy = true → l.foldl slPhase none = slOpen) := by
  induction h with
  | start => exact ⟨trivial, fun hb => by cases hb⟩
  | @move st st' l ops _ h ih =>
    obtain ⟨h4, h5⟩ := ih
    rw [slOrder_append, List.foldl_append]
    cases h with
    | step h =>
      obtain ⟨h1, h2, h3⟩ := rvStep_order hB h
      rw [h5 h1]
      exact ⟨⟨h4, h2⟩, h3⟩
    | listen st hs => exact ⟨⟨h4, trivial⟩, fun hb => by rcases hs with rfl | rfl <;> cases hb⟩
    | firstNone st hs => exact ⟨⟨h4, (close_order _).1⟩, fun hb => by rcases hs with rfl | rfl <;> cases hb⟩
    | firstOk fd h =>
      have e : ([.close false, .connect fd] : List SlOp) = [.close false] ++ [.connect fd] := rfl
      rw [e, slOrder_append, List.foldl_append]
      simp only [List.foldl_cons, List.foldl_nil, (close_order _).2]
      exact ⟨⟨h4, (close_order _).1, h, trivial⟩, fun _ => rfl⟩
    | timeoutFinal => exact ⟨⟨h4, trivial⟩, fun hb => by cases hb⟩
    | timeoutNone => exact ⟨⟨h4, (close_order _).1⟩, fun hb => by cases hb⟩
    | timeoutOk fd h st hs =>
      have e : ([.close false, .connect fd] : List SlOp) = [.close false] ++ [.connect fd] := rfl
      rw [e, slOrder_append, List.foldl_append]
      simp only [List.foldl_cons, List.foldl_nil, (close_order _).2]
      exact ⟨⟨h4, (close_order _).1, h, trivial⟩, fun _ => rfl⟩
    | finishErr => exact ⟨⟨h4, (close_order _).1⟩, fun hb => by cases hb⟩
    | aborted => exact ⟨⟨h4, trivial⟩, fun hb => by cases hb⟩
    | again => exact ⟨⟨h4, trivial⟩, fun hb => by cases hb⟩

/-- C113: a receiver thread, in however many sessions, whatever its senders send, whatever fails and
whenever the transfer is aborted, calls its socket in an order in which, with any network and OpenSSL,
every call returns and none ends the process in a check. -/
theorem C113_receiver {ver B : Int} (hB : 0 < B) {st : RvSt} {ops : List SlOp} (h : RvReach ver B st ops)
    (E : Nat → SlEv) (enc : Int) (secret plain : Bool) (iv tag : Int) (hs : enc ≠ 0 → secret = true) :
    ∃ rs s, slRun E ops (slNew enc secret plain iv tag) = .ok (rs, s) ∧ rs.length = ops.length :=
  C111_no_check E enc secret plain iv tag hs ops (rvReach_inv hB h).1

/-- C113: the lengths matter: a receiver that announces a list of checkpoints of length 0 makes the sender
read 0 bytes, which ends the sender in a check (see C107). -/
theorem C113_violated_length : ∃ c : SdConf, SdReach 32 4096 (fun n => n = 0) c ∧ ∃ ops, c.cur = some ops ∧
    ∃ E, slRun E ops (slNew 0 false true 0 0) = .error .check := by
  refine ⟨⟨.connect, some ([.connect 7] ++ [.write 100] ++ [] ++ [.write kMinBufLength] ++ [.read 1] ++ [.read 2, .read 0]), []⟩, ?_, _, rfl,
    fun _ => { n := 100000 }, by decide +kernel⟩
  have h0 : SdReach 32 4096 (fun n => n = 0) _ := .start
  have h1 := h0.move (.connOk rfl (.ok 7 (by decide)) .sendSettings (.inl rfl))
  have h2 := h1.move (.step rfl (.sendSettings 100 (by decide) .sendBlocks (.inr (.inr rfl))))
  have h3 := h2.move (.step rfl (.blocksNone false))
  have h4 := h3.move (.step rfl (.sendDone .readCmd (.inr rfl)))
  have h5 := h4.move (.step rfl (.readCmd 0 .procErr (.inr (.inl rfl))))
  have h6 := h5.move (.step rfl (SdStep.procErr (L := fun n => n = 0) 0 rfl .connect (.inl rfl)))
  exact Eq.mp (congrArg (SdReach 32 4096 _) (by decide +kernel)) h6

/-- a sender that connects at the second address, sends a block, loses the connection, connects again and
finishes -/
example : SdReach 32 4096 (fun n => n = 12) ⟨.fin, none,
    [[.connect 8, .read 60, .write 100, .write 256, .read 1, .write 1, .shutdownWrites, .expectEndOfStream, .close false],
     [.connect 6, .close true, .connect 7, .write 100, .write 60, .write 5000, .read 1, .close false, .close false]]⟩ := by
  have h0 : SdReach 32 4096 (fun n => n = 12) _ := .start
  have h1 := h0.move (.connOk rfl (.retry 6 (by decide) (.ok 7 (by decide))) .sendSettings (.inl rfl))
  have h2 := h1.move (.step rfl (.sendSettings 100 (by decide) .sendBlocks (.inr (.inr rfl))))
  have h3 := h2.move (.step rfl (.block 60 (by decide) (.data 5000 (by decide) .stop) .checkAbort (.inr (.inl rfl))))
  have h4 := h3.move (.step rfl (.checkAbort .connect (.inl rfl)))
  have h5 := h4.move (.connOk rfl (.ok 8 (by decide)) .readLocalCp (.inr rfl))
  have h6 := h5.move (.step rfl (.readLocalCp .sendSettings (.inr (.inr (.inr rfl)))))
  have h7 := h6.move (.step rfl (.sendSettings 100 (by decide) .sendBlocks (.inr (.inr rfl))))
  have h8 := h7.move (.step rfl (.blocksNone false))
  have h9 := h8.move (.step rfl (.sendDone .readCmd (.inr rfl)))
  have h10 := h9.move (.step rfl (.readCmd 0 .procDone (.inr (.inr (.inr (.inl rfl))))))
  have h11 := h10.move (.step rfl (.procDone .fin (.inr rfl)))
  have h12 := h11.move (.finish rfl)
  exact Eq.mp (congrArg (SdReach 32 4096 _) (by decide +kernel)) h12

/-- a receiver that reads the settings and a file, waits, sends DONE, fails to see the end, accepts again
and finishes, and then serves another sender -/
example : RvReach 32 4096 .readNext
    [.close false, .connect 5, .read 4096, .write 1, .read 3000, .write 1, .write 1, .read 1, .expectEndOfStream,
     .close false, .connect 6, .write 60, .write 1, .read 1, .expectEndOfStream, .close true, .close false, .connect 5] := by
  have h0 : RvReach 32 4096 _ _ := .start
  have h1 := h0.move (.listen .acceptFirst (.inr rfl))
  have h2 := h1.move (.firstOk 5 (by decide))
  have h3 := h2.move (.step (.readNext 0 0 (by decide) (by decide) (.more (by decide) 1000 (by decide) (.enough (by decide))) .procSettings (by simp)))
  have h4 := h3.move (.step (.procSettings .readNext (by simp)))
  have h5 := h4.move (.step (.readNext 50 950 (by decide) (by decide) (.enough (by decide)) .procFile (by simp)))
  have h6 := h5.move (.step (.fileData true 4000 60 900 (by decide) (.enough (by decide)) 3000 (.more (by decide) false false 3000 .stop) .readNext (by simp)))
  have h7 := h6.move (.step (.readNext 0 256 (by decide) (by decide) (.enough (by decide)) .procDone (by simp)))
  have h8 := h7.move (.step (.procDone .waitFinish (by simp)))
  have h9 := h8.move (.step (.waitFinish 1 .sendDone (by simp)))
  have h10 := h9.move (.step .doneEof)
  have h11 := h10.move (.timeoutOk 6 (by decide) .sendLocalCp (by simp))
  have h12 := h11.move (.step (.sendLocalCp .readNext (by simp)))
  have h13 := h12.move (.step (.readNext 0 256 (by decide) (by decide) (.enough (by decide)) .procDone (by simp)))
  have h14 := h13.move (.step (.procDone .waitFinish (by simp)))
  have h15 := h14.move (.step (.waitFinish 0 .sendDone (by simp)))
  have h16 := h15.move (.step .done)
  have h17 := h16.move .again
  have h18 := h17.move (.listen .acceptFirst (.inr rfl))
  have h19 := h18.move (.firstOk 5 (by decide))
  exact Eq.mp (congrArg (RvReach 32 4096 _) (by decide +kernel)) h19

end Wdt
