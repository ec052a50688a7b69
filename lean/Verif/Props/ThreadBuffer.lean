import Verif.Model.ThreadBuffer
import Verif.Props.FileByteSource
import Verif.Props.ReceiverStream
import Verif.Props.HistoryByPort
import Verif.Props.ReceiverFinish
import Mathlib.Tactic.Linarith
import Mathlib.Tactic.Ring
import Mathlib.Tactic.NormNum
/-
C115: a transfer works with every buffer size.
-/
namespace Wdt

/-- Memory that was found has the size that was asked for, and no object is larger than half of the
address space. -/
def MemOS.Legal (mem : MemOS) : Prop := ∀ n d, mem n = some d → d.length = n ∧ n < 2 ^ 63

/-- The option can be any `int32_t`. -/
def IsI32 (v : Int) : Prop := -2147483648 ≤ v ∧ v ≤ 2147483647

/-- The corrected size: a usable one, or (after an overflow) the smallest `int32_t`. -/
theorem updateBufferSize_cases {opt : Int} (h : IsI32 opt) :
    (opt ≤ 2147479552 ∧ 8192 ≤ updateBufferSize kMaxHeader kDiskBlock opt ∧ opt ≤ updateBufferSize kMaxHeader kDiskBlock opt ∧
      updateBufferSize kMaxHeader kDiskBlock opt % 4096 = 0 ∧ updateBufferSize kMaxHeader kDiskBlock opt ≤ 2147479552 ∧
      updateBufferSize kMaxHeader kDiskBlock opt < max 4150 opt + 4096) ∨
    (2147479552 < opt ∧ updateBufferSize kMaxHeader kDiskBlock opt = -2147483648) := by
  have hk : kMaxHeader = 4150 := rfl
  have hd : (kDiskBlock : Int) = 4096 := rfl
  unfold IsI32 at h
  unfold updateBufferSize
  rw [hk, hd]
  by_cases ha : opt < 4150
  · simp only [if_pos ha]
    omega
  · simp only [if_neg ha]
    by_cases hb : opt % 4096 ≠ 0
    · simp only [if_pos hb]; omega
    · simp only [if_neg hb]; omega

/-- A thread got the buffer it needs: there is memory of the size that the thread believes in, at least
as much as the user asked for, all commands fit in, and it consists of whole disk blocks. -/
structure ThrBuf.Good (b : ThrBuf) (opt : Int) : Prop where
  mem : b.data = some b.bytes
  size : b.size = b.bytes.length
  fits : 8192 ≤ b.bytes.length
  asked : opt ≤ b.bytes.length
  tight : (b.bytes.length : Int) < max 4150 opt + 4096
  blocks : kDiskBlock ∣ b.bytes.length

theorem newBuffer_cases {opt : Int} (h : IsI32 opt) {mem : MemOS} (hl : mem.Legal) :
    ∃ b, newBuffer mem (updateBufferSize kMaxHeader kDiskBlock opt) = .ok b ∧
      (b.Good opt ∧ opt ≤ 2147479552 ∨ b = {} ∧ mem (toSizeT (updateBufferSize kMaxHeader kDiskBlock opt)) = none) := by
  have hd : (kDiskBlock : Int) = 4096 := rfl
  have hc := updateBufferSize_cases h
  generalize updateBufferSize kMaxHeader kDiskBlock opt = v at hc ⊢
  have hm : v.tmod kDiskBlock = 0 := by
    rw [hd]
    apply Int.tmod_eq_zero_of_dvd
    omega
  unfold newBuffer
  rw [if_neg (by simp [hm])]
  cases hb : mem (toSizeT v) with
  | none => exact ⟨_, rfl, .inr ⟨rfl, rfl⟩⟩
  | some d =>
    obtain ⟨h1, h2⟩ := hl _ _ hb
    refine ⟨_, rfl, .inl ?_⟩
    unfold toSizeT at h1 h2
    rcases hc with ⟨a, b, c, e, f, g⟩ | ⟨a, b⟩
    · have hlen : (d.length : Int) = v := by omega
      refine ⟨⟨rfl, ?_, ?_, ?_, ?_, ?_⟩, a⟩
      · show v = (d.length : Int); omega
      · show 8192 ≤ d.length; omega
      · show opt ≤ (d.length : Int); omega
      · show (d.length : Int) < _; omega
      · show 4096 ∣ d.length; omega
    · exfalso; omega

/-- Whatever buffer size the user asks for: making the threads fails no check, there is a buffer for each
thread, and each thread whose memory was found has a good one; the others have none at all. -/
theorem C115_buffers (opt : Int) (h : IsI32 opt) (mems : List MemOS) (hl : ∀ m ∈ mems, m.Legal) :
    ∃ bs, transferBuffers opt mems = .ok bs ∧ bs.length = mems.length ∧ ∀ b ∈ bs, b.Good opt ∨ b = {} := by
  unfold transferBuffers
  induction mems with
  | nil => exact ⟨[], rfl, rfl, by simp⟩
  | cons m ms ih =>
    obtain ⟨bs, e, hlen, hb⟩ := ih fun x hx => hl x (List.mem_cons_of_mem _ hx)
    obtain ⟨b, e1, h1⟩ := newBuffer_cases h (hl m List.mem_cons_self)
    refine ⟨b :: bs, ?_, by simp [hlen], ?_⟩
    · simp only [makeBuffers]; rw [e1]; dsimp only; rw [e]
    · intro x hx
      rcases List.mem_cons.1 hx with rfl | hx
      · exact h1.imp And.left And.left
      · exact hb x hx

theorem makeBuffers_size {size : Int} {mems : List MemOS} {bs : List ThrBuf} (e : makeBuffers size mems = .ok bs) (b : ThrBuf)
    (hm : b ∈ bs) {d : Bytes} (hd : b.data = some d) : b.size = size := by
  induction mems generalizing bs with
  | nil => cases e; cases hm
  | cons m ms ih =>
    simp only [makeBuffers] at e
    split at e
    · cases e
    · rename_i b1 h1
      split at e
      · cases e
      · rename_i bs1 h2
        cases e
        rcases List.mem_cons.1 hm with rfl | hm
        · unfold newBuffer at h1
          split at h1
          · cases h1
          · split at h1
            · cases h1; cases hd
            · cases h1; rfl
        · exact ih h2 hm

/-- If the machine finds memory of any size that a user may ask for (up to 2 GB less one disk block), all
threads have good buffers. -/
theorem C115_enough_partial (opt : Int) (h : IsI32 opt) (hmax : opt ≤ 2147479552) (mems : List MemOS) (hl : ∀ m ∈ mems, m.Legal)
    (hm : ∀ m ∈ mems, ∀ n, n ≤ 2147479552 → m n ≠ none) :
    ∃ bs, transferBuffers opt mems = .ok bs ∧ bs.length = mems.length ∧ ∀ b ∈ bs, b.Good opt := by
  unfold transferBuffers
  induction mems with
  | nil => exact ⟨[], rfl, rfl, by simp⟩
  | cons m ms ih =>
    obtain ⟨bs, e, hlen, hb⟩ := ih (fun x hx => hl x (List.mem_cons_of_mem _ hx)) (fun x hx => hm x (List.mem_cons_of_mem _ hx))
    obtain ⟨b, e1, h1⟩ := newBuffer_cases h (hl m List.mem_cons_self)
    refine ⟨b :: bs, ?_, by simp [hlen], ?_⟩
    · simp only [makeBuffers]; rw [e1]; dsimp only; rw [e]
    · intro x hx
      rcases List.mem_cons.1 hx with rfl | hx
      · rcases h1 with h1 | ⟨_, h1⟩
        · exact h1.1
        · refine absurd h1 (hm m List.mem_cons_self _ ?_)
          unfold toSizeT
          rcases updateBufferSize_cases h with h2 | h2 <;> omega
      · exact hb x hx

/-- A receiver thread with such a buffer does what the reference parser says about the bytes that arrive:
the size that the user asked for, and what the memory contained, make no difference. -/
theorem C115_receives (opt : Int) (b : ThrBuf) (hg : b.Good opt) (frag : List Int → Nat) (crc : Int → UInt8 → Int)
    (id stream : Bytes) (ver : Int) (footer : Bool) (fuel : Nat) (r : List RObs × ROut)
    (h : specRun crc id fuel ver footer stream 0 = some r) :
    receive frag crc id fuel (.fresh b.bytes stream ver footer) = .ok r :=
  C34_parse_partial frag crc id b.bytes stream ver footer hg.fits fuel r h

/-- A sender thread with such a buffer sends exactly the bytes of a block of a file that can be read, and
with direct I/O as well. -/
theorem C115_sends (opt : Int) (b : ThrBuf) (hg : b.Good opt) (file : Bytes) (os : ReadOS) (o n : Nat) (direct : Bool)
    (hl : os.Legal file) (he : os.NoErr) (hf : direct = true → os.Full file) (hlen : o + n ≤ file.length) :
    sendLoop file os (n + 1) 0 (opened o n direct) b.bytes [] = .sent (blockOf file o n) := by
  have h0 : 0 < b.bytes.length := by have := hg.fits; omega
  cases direct with
  | false => exact C42_reads_block file os o n b.bytes hl he h0 hlen
  | true => exact C42_direct_partial file os o n b.bytes hl he (hf rfl) h0 hg.blocks hlen

/-- Two transfers with different buffer sizes, of which the threads got memory: any thread of one and any
thread of the other do the same with the same bytes, however these arrive, and send the same for the
same block of a file, also if one of them uses direct I/O and the other does not. -/
theorem C115_size_makes_no_difference (opt opt' : Int) (h : IsI32 opt) (h' : IsI32 opt') (mems mems' : List MemOS)
    (hl : ∀ m ∈ mems, m.Legal) (hl' : ∀ m ∈ mems', m.Legal) (bs bs' : List ThrBuf)
    (hb : transferBuffers opt mems = .ok bs) (hb' : transferBuffers opt' mems' = .ok bs') (b b' : ThrBuf) (hm : b ∈ bs)
    (hm' : b' ∈ bs') (hd : b.data ≠ none) (hd' : b'.data ≠ none) :
    (∀ (frag frag' : List Int → Nat) (crc : Int → UInt8 → Int) (id stream : Bytes) (ver : Int) (footer : Bool) (fuel : Nat),
      specRun crc id fuel ver footer stream 0 ≠ none →
      receive frag crc id fuel (.fresh b.bytes stream ver footer) = receive frag' crc id fuel (.fresh b'.bytes stream ver footer)) ∧
    ∀ (file : Bytes) (os os' : ReadOS) (o n : Nat) (direct direct' : Bool), os.Legal file → os.NoErr → (direct = true → os.Full file) →
      os'.Legal file → os'.NoErr → (direct' = true → os'.Full file) → o + n ≤ file.length →
      sendLoop file os (n + 1) 0 (opened o n direct) b.bytes [] = sendLoop file os' (n + 1) 0 (opened o n direct') b'.bytes [] := by
  obtain ⟨x, e, _, hc⟩ := C115_buffers opt h mems hl
  rw [e] at hb
  cases hb
  obtain ⟨y, e', _, hc'⟩ := C115_buffers opt' h' mems' hl'
  rw [e'] at hb'
  cases hb'
  have hg := (hc b hm).resolve_right fun e => hd (e ▸ rfl)
  have hg' := (hc' b' hm').resolve_right fun e => hd' (e ▸ rfl)
  refine ⟨fun frag frag' crc id stream ver footer fuel hs => ?_, fun file os os' o n direct direct' h1 h2 h3 h4 h5 h6 h7 => ?_⟩
  · exact C34_fragmentation_partial frag frag' crc id b.bytes b'.bytes stream ver footer hg.fits hg'.fits fuel hs
  · rw [C115_sends opt b hg file os o n direct h1 h2 h3 h7, C115_sends opt' b' hg' file os' o n direct' h4 h5 h6 h7]

/-- A thread for which there was no memory stores MEMORY_ALLOCATION_ERROR and does nothing else; every
thread that goes on has a good buffer. -/
theorem C115_no_memory_reported (opt : Int) (mems : List MemOS) (bs : List ThrBuf) (h : IsI32 opt) (hl : ∀ m ∈ mems, m.Legal)
    (hb : transferBuffers opt mems = .ok bs) (b : ThrBuf) (hm : b ∈ bs) :
    (threadStart b = none ∧ b.Good opt) ∨ (threadStart b = some eMEMORY_ALLOCATION_ERROR ∧ b.bytes = [] ∧ b.size = 0) := by
  obtain ⟨bs', e, _, hc⟩ := C115_buffers opt h mems hl
  rw [e] at hb
  cases hb
  rcases hc b hm with hg | rfl
  · left
    refine ⟨?_, hg⟩
    unfold threadStart
    rw [hg.mem]
    rfl
  · exact .inr ⟨rfl, rfl, rfl⟩

/-- But such a sender thread returns (SenderThread.cpp:957-961) before it gives its account of sent blocks
free (SenderThread.cpp:993): it takes no step of the history system.  A thread that the receiver tells
about its port waits for it, and goes on waiting whatever all the others do. -/
theorem C115_violated_wait (ports : List Int) (nd : ports.Nodup) (es0 : List HpEv) (s : HpSys)
    (hr : hpRun (hpInit ports) es0 = .ok s) (t u : Nat) (c : Checkpoint) (cs : List Checkpoint)
    (ht : ports[t]? = some c.port) (h0 : ∀ e ∈ es0, e.thread ≠ t) (hu : s.ph u = .wait c cs) (es : List HpEv) (s' : HpSys)
    (hes : ∀ e ∈ es, e.thread ≠ t) (hs : hpRun s es = .ok s') : s'.ph u = .wait c cs := by
  have other : ∀ {a b : HpSys} {e : HpEv} {v : Nat}, hpStep a e = .ok b → e.thread ≠ v → b.ph v = a.ph v := by
    intro a b e v hst hne
    cases e <;> simp only [hpStep] at hst <;> simp only [HpEv.thread] at hne <;> (repeat' (split at hst)) <;>
      first | (cases hst; done) | (cases hst; simp [hpSetP, Ne.symm hne])
  have start : ∀ (l : List HpEv) (a b : HpSys), (∀ e ∈ l, e.thread ≠ t) → hpRun a l = .ok b → b.ph t = a.ph t := by
    intro l
    induction l with
    | nil => intro a b _ h; cases h; rfl
    | cons e l ih =>
      intro a b hl h
      simp only [hpRun] at h
      split at h
      · rename_i m hm
        rw [ih m b (fun x hx => hl x (List.mem_cons_of_mem _ hx)) h, other hm (hl e List.mem_cons_self)]
      · cases h
      · cases h
  have hrun : s.ph t = .run := start es0 _ _ h0 hr
  obtain ⟨hi, hp⟩ := (HpInv.init ports).run hr
  have hp : s.ports = ports := hp
  have main : ∀ (l : List HpEv) (a b : HpSys), (∀ e ∈ l, e.thread ≠ t) → HpInv a → a.ports = ports → a.ph t = .run →
      a.ph u = .wait c cs → hpRun a l = .ok b → b.ph u = .wait c cs := by
    intro l
    induction l with
    | nil => intro a b _ _ _ _ hw h; cases h; exact hw
    | cons e l ih =>
      intro a b hl hia hpa hta hw h
      simp only [hpRun] at h
      split at h
      · rename_i m hm
        have hne := hl e List.mem_cons_self
        refine ih m b (fun x hx => hl x (List.mem_cons_of_mem _ hx)) (hia.step hm) (by rw [hpStep_ports hm, hpa])
          (by rw [other hm hne, hta]) ?_ h
        by_cases hv : e.thread = u
        · exfalso
          obtain ⟨k, hk⟩ := hia.has t c.port (by rw [hpa]; exact ht)
          have hin : k.inUse = true := (hia.use (by rw [hpa]; exact nd) t c.port k (by rw [hpa]; exact ht) hk).2 (by rw [hta]; simp)
          cases e <;> simp only [HpEv.thread] at hv <;> subst hv <;> simp [hpStep, hw, hk, hin] at hm
        · rw [other hm hv, hw]
      · cases h
      · cases h
  exact main es s s' hes hi hp hrun hu hs

/-- Thread 0, with port 7, has no memory; thread 1 is told about port 7. -/
example : ∃ s, hpRun (hpInit [7, 8]) [.err 1 [{ port := 7 }], .next 1] = .ok s ∧ s.ph 1 = .wait { port := 7 } [] := ⟨_, rfl, rfl⟩

/-- A receiver thread without memory returns (ReceiverThread.cpp:984-988) with its state still RUNNING and
without a checkpoint.  The other threads never come to answer DONE, whatever happens: a sender that has
sent everything is kept waiting. -/
theorem C115_violated_no_done (n v : Nat) (hv : v < n) (es : List REvent) (s : RFin) (hes : ∀ e ∈ es, e.tid ≠ v)
    (hr : rRun n {} es = some s) (t : Nat) : (s.th t).phase ≠ .decided ∧ (s.th t).phase ≠ .sendDone := by
  have step : ∀ (a b : RFin) (e : REvent), e.tid ≠ v → rStep n a e = some b →
      ((a.th v).mark = .running ∧ ∀ u, (a.th u).phase ≠ .decided ∧ (a.th u).phase ≠ .sendDone) →
      ((b.th v).mark = .running ∧ ∀ u, (b.th u).phase ≠ .decided ∧ (b.th u).phase ≠ .sendDone) := by
    rintro a b e hne hst ⟨hm, hp⟩
    have put : ∀ (x : RThr) (cps : List Nat) (lock : Option Nat), x.phase ≠ .decided → x.phase ≠ .sendDone →
        b = { th := upd a.th e.tid x, cps := cps, lock := lock } →
        ((b.th v).mark = .running ∧ ∀ u, (b.th u).phase ≠ .decided ∧ (b.th u).phase ≠ .sendDone) := by
      rintro x cps lock h1 h2 rfl
      refine ⟨by simpa [upd, Ne.symm hne] using hm, fun u => ?_⟩
      simp only [upd]
      split
      · exact ⟨h1, h2⟩
      · exact hp u
    cases e with
    | query w =>
      simp only [REvent.tid] at hne put
      simp only [rStep] at hst
      split at hst
      · split at hst
        · cases hst; exact put _ _ _ (by simp) (by simp) rfl
        · rename_i hno
          exact absurd (List.any_eq_true.2 ⟨v, List.mem_range.2 hv, by simp [hm, Ne.symm hne]⟩) hno
      · cases hst
    | finish w =>
      simp only [rStep] at hst
      split at hst
      · rename_i hw
        exact absurd hw.2 (hp w).1
      · cases hst
    | file w =>
      simp only [rStep] at hst
      split at hst
      · rename_i hw
        cases hst; exact put _ _ _ (by simp [hw.2]) (by simp [hw.2]) rfl
      · cases hst
    | _ =>
      simp only [rStep] at hst
      (repeat' split at hst) <;> first | (cases hst; done) | (cases hst; exact put _ _ _ (by simp) (by simp) rfl)
  have main : ∀ (l : List REvent) (a b : RFin), (∀ e ∈ l, e.tid ≠ v) → rRun n a l = some b →
      ((a.th v).mark = .running ∧ ∀ u, (a.th u).phase ≠ .decided ∧ (a.th u).phase ≠ .sendDone) →
      ((b.th v).mark = .running ∧ ∀ u, (b.th u).phase ≠ .decided ∧ (b.th u).phase ≠ .sendDone) := by
    intro l
    induction l with
    | nil => intro a b _ h hi; cases h; exact hi
    | cons e l ih =>
      intro a b hl h hi
      simp only [rRun] at h
      split at h
      · cases h
      · rename_i m hm
        exact ih m b (fun x hx => hl x (List.mem_cons_of_mem _ hx)) h (step a m e (hl e List.mem_cons_self) hm hi)
  exact (main es {} s hes hr ⟨rfl, fun u => ⟨by simp, by simp⟩⟩).2 t

/-- Thread 0 has received everything, thread 1 has no memory. -/
example : ∃ s, rRun 2 {} [.file 0, .doneCmd 0, .markWaiting 0, .look 0, .query 0] = some s ∧ (s.th 0).phase = .waiting := ⟨_, rfl, rfl⟩

/-- If the user asks for more than 2147479552 bytes, no thread ever gets a buffer, however much memory
there is, because the size rounded up is stored in 32 bits. -/
theorem C115_violated_large (opt : Int) (h : IsI32 opt) (hbig : 2147479552 < opt) (mems : List MemOS) (hl : ∀ m ∈ mems, m.Legal) :
    ∃ bs, transferBuffers opt mems = .ok bs ∧ bs.length = mems.length ∧ ∀ b ∈ bs, threadStart b = some eMEMORY_ALLOCATION_ERROR := by
  obtain ⟨bs, e, hlen, hb⟩ := C115_buffers opt h mems hl
  refine ⟨bs, e, hlen, ?_⟩
  clear hb hlen
  unfold transferBuffers at e
  induction mems generalizing bs with
  | nil => cases e; simp
  | cons m ms ih =>
    obtain ⟨b, e1, h1⟩ := newBuffer_cases h (hl m List.mem_cons_self)
    simp only [makeBuffers] at e
    rw [e1] at e
    dsimp only at e
    cases e2 : makeBuffers (updateBufferSize kMaxHeader kDiskBlock opt) ms with
    | error f => rw [e2] at e; cases e
    | ok bs' =>
      rw [e2] at e
      cases e
      intro x hx
      rcases List.mem_cons.1 hx with rfl | hx
      · rcases h1 with ⟨_, h1⟩ | ⟨rfl, _⟩
        · omega
        · rfl
      · exact ih (fun y hy => hl y (List.mem_cons_of_mem _ hy)) bs' e2 x hx

/-- A sender starts with the rates that the user asked for, in bytes, and its throttler takes requests as
large as the buffers of its threads, so that sending a full buffer is one request.  A throttler that the
caller provides is used unchanged. -/
theorem C115_start (opt : Int) (h : IsI32 opt) (hmax : opt ≤ 2147479552) (r : RateOpts) (given : Option Thr) (mems : List MemOS)
    (hl : ∀ m ∈ mems, m.Legal) :
    ∃ t bs, senderStart opt r given mems = .ok (t, bs) ∧ transferBuffers opt mems = .ok bs ∧ (∀ g, given = some g → t = g) ∧
      (given = none → t.avg = r.avgMb * 2 ^ 20 ∧ t.rate = r.maxMb * 2 ^ 20 ∧
        (0 < r.bucketMb → t.limit = r.bucketMb * 2 ^ 20) ∧ (r.bucketMb ≤ 0 → t.limit = r.maxMb * 2 ^ 20 / 2) ∧
        t.refs = 0 ∧ ∀ b ∈ bs, b.Good opt → t.single = b.bytes.length) := by
  obtain ⟨bs, e, _, hb⟩ := C115_buffers opt h mems hl
  cases given with
  | some g =>
    refine ⟨g, bs, ?_, e, fun g' hg => (by cases hg; rfl), fun hg => (by cases hg)⟩
    simp only [senderStart]
    rw [e]
  | none =>
    have hu := updateBufferSize_cases h
    have hpos : ¬ (throttlerOptions r (updateBufferSize kMaxHeader kDiskBlock opt)).single ≤ 0 := by
      show ¬ updateBufferSize kMaxHeader kDiskBlock opt ≤ 0
      rcases hu with hu | hu <;> omega
    refine ⟨{ avg := r.avgMb * 1048576, rate := r.maxMb * 1048576
              limit := if r.bucketMb * 1048576 > 0 then r.bucketMb * 1048576 else 1 / 4 * 2 * (r.maxMb * 1048576)
              single := updateBufferSize kMaxHeader kDiskBlock opt }, bs, ?_, e, fun g' hg => (by cases hg), fun _ => ⟨?_, ?_, ?_, ?_, ?_, ?_⟩⟩
    · simp only [senderStart, Thr.make]
      rw [if_neg hpos, e]
      rfl
    · show r.avgMb * 1048576 = _; norm_num
    · show r.maxMb * 1048576 = _; norm_num
    · intro h0
      show (if r.bucketMb * 1048576 > 0 then r.bucketMb * 1048576 else _) = _
      rw [if_pos (by linarith)]; norm_num
    · intro h0
      show (if r.bucketMb * 1048576 > 0 then r.bucketMb * 1048576 else 1 / 4 * 2 * (r.maxMb * 1048576)) = _
      rw [if_neg (by linarith)]; ring
    · rfl
    · intro b hm hg
      show updateBufferSize kMaxHeader kDiskBlock opt = _
      exact (makeBuffers_size e b hm hg.mem).symm.trans hg.size

/-- With a size above 2147479552 a sender that has to make its own throttler fails a check in `start`, and
with it the process. -/
theorem C115_violated_large_start (opt : Int) (h : IsI32 opt) (hbig : 2147479552 < opt) (r : RateOpts) (mems : List MemOS) :
    senderStart opt r none mems = .error .check := by
  have hu := updateBufferSize_cases h
  have hneg : (throttlerOptions r (updateBufferSize kMaxHeader kDiskBlock opt)).single ≤ 0 := by
    show updateBufferSize kMaxHeader kDiskBlock opt ≤ 0
    rcases hu with hu | hu <;> omega
  simp only [senderStart, Thr.make]
  rw [if_pos hneg]

example : IsI32 2147483647 ∧ (2147479552 : Int) < 2147483647 := by unfold IsI32; omega

/-- A machine with 1 GB of memory for each thread. -/
def gbMem : MemOS := fun n => if n ≤ 1073741824 then some (List.replicate n 0) else none

theorem gbMem_legal : gbMem.Legal := by
  intro n d h
  unfold gbMem at h
  split at h
  · cases h
    rw [List.length_replicate]
    exact ⟨rfl, by omega⟩
  · cases h

/-- A user asks for 5000 bytes: two threads get 8192 each. -/
example : ∃ b, transferBuffers 5000 [gbMem, gbMem] = .ok [b, b] ∧ b.size = 8192 ∧ b.Good 5000 := by
  refine ⟨{ data := some (List.replicate 8192 0), size := 8192, isAligned := true }, rfl, rfl, ?_⟩
  have hb : ThrBuf.bytes { data := some (List.replicate 8192 0), size := 8192, isAligned := true } = List.replicate 8192 0 := rfl
  have hlen : (ThrBuf.bytes { data := some (List.replicate 8192 0), size := 8192, isAligned := true }).length = 8192 := by
    rw [hb, List.length_replicate]
  exact ⟨rfl, by rw [hlen]; rfl, by omega, by omega, by omega, by rw [hlen]; exact ⟨2, rfl⟩⟩

/-- 1.5 GB is more than there is: the thread has no buffer. -/
example : transferBuffers 1610612736 [gbMem] = .ok [{}] ∧ ¬ ThrBuf.Good {} 1610612736 ∧ IsI32 1610612736 := by
  refine ⟨rfl, fun h => ?_, by unfold IsI32; omega⟩
  have := h.fits
  simp [ThrBuf.bytes] at this

/-- Memory that is always found. -/
example : ∃ m : MemOS, m.Legal ∧ ∀ n, n ≤ 2147479552 → m n ≠ none := by
  refine ⟨fun n => if n < 2 ^ 63 then some (List.replicate n 0) else none, ?_, ?_⟩
  · intro n d h
    dsimp only at h
    split at h
    · cases h; rw [List.length_replicate]; exact ⟨rfl, by assumption⟩
    · cases h
  · intro n hn
    dsimp only
    rw [if_pos (by omega)]
    simp

end Wdt
