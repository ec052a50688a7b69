import Verif.Lemmas.EndToEndRun
import Verif.Props.Reporting
/-
C70: when a sender thread ends well, or the sender reports success, the data is at the receiver.
-/
namespace Wdt

/-- A byte of a block is at the receiver. -/
theorem arrived_dec {c : ECfg} {mb : Int} {del : Bool} {es : List EEvent} {S : ESys}
    (h : eRun c (ESys.init c mb del) es = some S) (hd : S.dec = true)
    (hr : S.refused = false) (hs : S.silent = false) (b : Source) (hb : b ∈ S.snd.created) :
    (∀ p, b.offset ≤ p → p < b.offset + b.size →
      (∃ l ∈ S.landed, l.seqId = b.seqId ∧ l.lo ≤ p ∧ p < l.hi) ∨ ∃ x ∈ S.snd.q.failed, x.key = b.key ∧ x.offset ≤ p) ∧
    ((∃ l ∈ S.landed, l.seqId = b.seqId ∧ l.hi = b.offset + b.size) ∨ ∃ x ∈ S.snd.q.failed, x.key = b.key) := by
  obtain ⟨-, -, hc⟩ := einv_run (PInv.init c mb del) (BInv.init c mb del) (CInv.init c mb del) h
  obtain ⟨-, -, hall⟩ := hc.dl hd hr hs
  obtain ⟨evs, r1, r2, r3, -⟩ := hc.run
  have split : ∀ x ∈ S.snd.everywhere, S.snd.Held x ∨ x ∈ S.snd.q.failed := by
    intro x hx
    rw [everywhere_mem] at hx
    rcases hx with hx | hx | hx
    · exact .inl (.inl hx)
    · exact .inl (.inr hx)
    · exact .inr hx
  constructor
  · intro p hp1 hp2
    have hcons := C20_every_byte_conserved mb del c.n evs S.snd r2 r3 r1 b.key p
    have hpos : 0 < S.snd.created.countP (fun x => decide (x.key = b.key ∧ x.offset ≤ p)) := by
      rw [List.countP_pos_iff]
      exact ⟨b, hb, by simp [hp1]⟩
    by_cases hcr : 0 < S.snd.credits.countP (fun k => decide (k.key = b.key ∧ k.lo ≤ p ∧ p < k.hi))
    · rw [List.countP_pos_iff] at hcr
      obtain ⟨k, hk1, hk2⟩ := hcr
      simp only [decide_eq_true_eq] at hk2
      have := hc.cred k hk1 p hk2.2.1 hk2.2.2
      rw [hk2.1] at this
      exact .inl this
    · have : 0 < S.snd.everywhere.countP (fun x => decide (x.key = b.key ∧ x.offset ≤ p)) := by omega
      rw [List.countP_pos_iff] at this
      obtain ⟨x, hx, hx2⟩ := this
      simp only [decide_eq_true_eq] at hx2
      rcases split x hx with hx | hx
      · have hk := hx2.1
        simp only [Source.key, Prod.mk.injEq] at hk
        have := (hall x hx).2 p hx2.2 (by omega)
        rw [hk.2.1] at this
        exact .inl this
      · exact .inr ⟨x, hx, hx2⟩
  · have hp := C20_blocks_conserved mb del c.n evs S.snd r2 r3 r1
    have hm : b.key ∈ S.snd.everywhere.map Source.key := hp.mem_iff.2 (List.mem_map_of_mem hb)
    obtain ⟨x, hx, hk⟩ := List.mem_map.1 hm
    rcases split x hx with hx | hx
    · obtain ⟨⟨l, h1, h2, h3⟩, -⟩ := hall x hx
      simp only [Source.key, Prod.mk.injEq] at hk
      exact .inl ⟨l, h1, by rw [h2, hk.2.1], by rw [h3, hk.2.2.2]⟩
    · exact .inr ⟨x, hx, hk⟩

theorem arrived {c : ECfg} {mb : Int} {del : Bool} {es : List EEvent} {S : ESys}
    (h : eRun c (ESys.init c mb del) es = some S) (t : Nat) (ht : (S.port t).sph = .ended true)
    (hr : S.refused = false) (hs : S.silent = false) (b : Source) (hb : b ∈ S.snd.created) :
    (∀ p, b.offset ≤ p → p < b.offset + b.size →
      (∃ l ∈ S.landed, l.seqId = b.seqId ∧ l.lo ≤ p ∧ p < l.hi) ∨ ∃ x ∈ S.snd.q.failed, x.key = b.key ∧ x.offset ≤ p) ∧
    ((∃ l ∈ S.landed, l.seqId = b.seqId ∧ l.hi = b.offset + b.size) ∨ ∃ x ∈ S.snd.q.failed, x.key = b.key) := by
  obtain ⟨hi, -, -⟩ := einv_run (PInv.init c mb del) (BInv.init c mb del) (CInv.init c mb del) h
  exact arrived_dec h ((hi.thr t).dn (.inr (.inr (.inl ht)))) hr hs b hb

/-- C70, first half: in every execution, with any number of ports, any breaks of connections, any
failures of threads on both sides and any order of events: once one sender thread has ended well,
every byte of every block of every discovered file is at the receiver (written under the file's
sequence id, which stands for one file, C51), or its file could not be opened.  Also of an empty
block the receiver has got the header.

Missing from the full statement, which is false without: no global checkpoint was refused (see
`C70_refused_checkpoint_loses_data` and `C70_early_checkpoint_loses_data`), and no receiver
thread ended without leaving its checkpoint (see `C33_silent_end`). -/
theorem C70_done_means_arrived_partial (c : ECfg) (mb : Int) (del : Bool) (es : List EEvent) (S : ESys)
    (h : eRun c (ESys.init c mb del) es = some S) (t : Nat) (ht : (S.port t).sph = .ended true)
    (hr : S.refused = false) (hs : S.silent = false) (b : Source) (hb : b ∈ S.snd.created)
    (hf : ∀ x ∈ S.snd.q.failed, x.key ≠ b.key) :
    (∀ p, b.offset ≤ p → p < b.offset + b.size → ∃ l ∈ S.landed, l.seqId = b.seqId ∧ l.lo ≤ p ∧ p < l.hi) ∧
    ∃ l ∈ S.landed, l.seqId = b.seqId ∧ l.hi = b.offset + b.size := by
  obtain ⟨h1, h2⟩ := arrived h t ht hr hs b hb
  exact ⟨fun p hp1 hp2 => (h1 p hp1 hp2).resolve_right fun ⟨x, hx, hk⟩ => hf x hx hk.1,
    h2.resolve_right fun ⟨x, hx, hk⟩ => hf x hx hk⟩

/-- C70, second half: if the sender's report says OK then all of every discovered file is at the
receiver.  `i` is what the report is made of: a thread's statistics say OK only if it ended well
(`SenderThread.cpp`: every `return END` but the one of PROCESS_DONE_CMD follows an error), and a file that could not be opened is among the failed sources with
its error (DirectorySourceQueue.cpp:706-720).  Same restrictions. -/
theorem C70_report_means_arrived_partial (c : ECfg) (mb : Int) (del : Bool) (es : List EEvent) (S : ESys)
    (i : SenderInput) (h : eRun c (ESys.init c mb del) es = some S) (hne : i.threads ≠ [])
    (hth : ∀ t s, i.threads[t]? = some s → s.errorCode = eOK → (S.port t).sph = .ended true)
    (hfs : ∀ x ∈ S.snd.q.failed, ∃ f ∈ i.failedSources, f.errorCode ≠ eOK)
    (hr : S.refused = false) (hs : S.silent = false) (hok : (senderReport i).errorCode = eOK)
    (b : Source) (hb : b ∈ S.snd.created) :
    (∀ p, b.offset ≤ p → p < b.offset + b.size → ∃ l ∈ S.landed, l.seqId = b.seqId ∧ l.lo ≤ p ∧ p < l.hi) ∧
    ∃ l ∈ S.landed, l.seqId = b.seqId ∧ l.hi = b.offset + b.size := by
  obtain ⟨-, -, h3, h4⟩ := C22_success_means_sent i hok
  obtain ⟨s, hs1, hs2⟩ := h4 hne
  obtain ⟨t, ht⟩ := List.mem_iff_getElem?.1 hs1
  refine C70_done_means_arrived_partial c mb del es S h t (hth t s ht hs2) hr hs b hb ?_
  intro x hx
  obtain ⟨f, hf1, hf2⟩ := hfs x hx
  exact absurd (h3 f hf1) hf2

/-! ### Executions -/

/-- A block of the examples. -/
def exSrc (name : UInt8) (seq size : Int) : Source :=
  { name := [name], seqId := seq, fileSize := size, status := 0, offset := 0, size := size }

/-- The same after a failed attempt of which `r` bytes arrived. -/
def exAgain (x : Source) (d r : Int) : Source :=
  { x with offset := r, size := x.size - r,
           stats := { dataBytes := d, failed := true, failedAttempts := 1, effDataBytes := r } }

/-- Thread 0 sends DONE, learns that another thread has failed, handles the checkpoint. -/
def exErr : List EEvent :=
  [.s (.sendDone 0), .v (.recvDone 0), .v (.markWaiting 0), .v (.look 0), .v (.resume 0), .v (.sendGlobal 0 true),
   .s (.readErr 0), .s (.global 0)]

/-- Thread 0 sends DONE and the transfer ends. -/
def exWrapUp : List EEvent :=
  [.s (.sendDone 0), .v (.recvDone 0), .v (.markWaiting 0), .v (.look 0), .v (.query 0), .v (.finish 0),
   .v (.writeDone 0), .s (.readDone 0), .v (.doneSent 0 true), .s (.doneEnd 0 true), .s (.exit 0)]

/-- Two files, two ports.  Connection 1 breaks after 4 of 10 bytes of the first file and is made
again; then the receiver's thread fails after 3 of 7 bytes of the second file.  Thread 0 sends
the rest of both. -/
def exGood : List EEvent :=
  [.s (.discover ⟨[97], 10⟩), .s (.discover ⟨[98], 7⟩), .s .finishDiscovery, .s (.connect 0), .s (.connect 1),
   .v (.accept1 0), .v (.accept1 1), .s (.pop 1 (exSrc 97 1 10)), .s (.openOk 1), .s (.write 1 10),
   .v (.recvPart 1 4 false), .s (.sent 1 (.ok 5)), .s (.lose 1), .s (.connect 1), .v (.accept 1 true), .s (.readCp 1),
   .s (.pop 1 (exSrc 98 2 7)), .s (.openOk 1), .s (.write 1 7), .v (.recvPart 1 3 true), .v (.failed 1),
   .s (.sent 1 (.ok 5)), .s (.pop 0 (exAgain (exSrc 97 1 10) 10 4)), .s (.openOk 0), .s (.write 0 6),
   .s (.sent 0 (.ok 5)), .v (.recv 0)] ++ exErr ++
  [.s (.lose 1), .s (.giveUp 1), .s (.exit 1), .s (.globalGo 0), .s (.errDone 0),
   .s (.pop 0 (exAgain (exSrc 98 2 7) 7 3)), .s (.openOk 0), .s (.write 0 4), .v (.recv 0), .s (.sent 0 (.ok 5))] ++ exWrapUp

example : ∃ S, eRun { n := 2 } (ESys.init { n := 2 } 0 false) exGood = some S ∧ (S.port 0).sph = .ended true ∧
    S.refused = false ∧ S.silent = false ∧ S.snd.created.length = 2 ∧ S.snd.q.failed = [] ∧
    S.landed = [⟨1, 0, 4⟩, ⟨2, 0, 3⟩, ⟨1, 4, 10⟩, ⟨2, 3, 7⟩] := by
  have h : (match eRun { n := 2 } (ESys.init { n := 2 } 0 false) exGood with
      | some S => decide ((S.port 0).sph = .ended true ∧ S.refused = false ∧ S.silent = false ∧ S.snd.created.length = 2 ∧
          S.snd.q.failed = [] ∧ S.landed = [⟨1, 0, 4⟩, ⟨2, 0, 3⟩, ⟨1, 4, 10⟩, ⟨2, 3, 7⟩])
      | none => false) = true := by decide +kernel
  split at h
  · rename_i S hS
    exact ⟨S, hS, of_decide_eq_true h⟩
  · cases h

/-- What the report of a finished transfer is made of, for two or three threads (Sender.cpp:164-266). -/
def exInput (n : Nat) (S : ESys) : SenderInput :=
  { failedSources := (S.snd.q.failed ++ S.snd.q.queue).map fun x =>
      { effDataBytes := x.stats.effDataBytes, localErr := eBYTE_SOURCE_READ_ERROR, id := x.name }
    threads := (List.range n).map fun t =>
      { effDataBytes := (S.snd.thr t).hist.stats.effDataBytes
        localErr := if (S.port t).sph = .ended true then eOK else eCONN_ERROR }
    failedDirs := []
    totalFileSize := S.snd.q.totalFileSize
    numDiscovered := S.snd.q.numEntries }

/-- The report after the good execution says OK. -/
example : (eRun { n := 2 } (ESys.init { n := 2 } 0 false) exGood).map (fun S => (senderReport (exInput 2 S)).errorCode) =
    some eOK := by decide +kernel

/-- Connection 1 breaks before any byte of the only block arrived, and again after 4 of its 10
bytes.  Both checkpoints of the receiver are right.  The first is "no block, last block 1 at
offset 0 with 0 bytes", the second "no block, last block 1 at offset 0 with 4 bytes"; the sender
takes a checkpoint with the same last block and another number of bytes for invalid
(ThreadTransferHistory.cpp:150-163), ends the thread, and later also ignores the global
checkpoint that would put the block back into the queue (SenderThread.cpp:823-825).  On the level
of bytes the first break is possible behind a header of at least 256 bytes (a long name,
`C99_violated_long_name`); a file with sequence id 0 does not need it (`C99_violated_refused`). -/
def exRefused : List EEvent :=
  [.s (.discover ⟨[97], 10⟩), .s .finishDiscovery, .s (.connect 0), .s (.connect 1), .v (.accept1 0), .v (.accept1 1),
   .s (.pop 1 (exSrc 97 1 10)), .s (.openOk 1), .s (.write 1 10), .v (.recvPart 1 0 false), .s (.sent 1 (.ok 5)),
   .s (.lose 1), .s (.connect 1), .v (.accept 1 true), .s (.readCp 1),
   .s (.pop 1 (exAgain (exSrc 97 1 10) 10 0)), .s (.openOk 1), .s (.write 1 10), .v (.recvPart 1 4 false),
   .s (.sent 1 (.ok 5)), .s (.lose 1), .s (.connect 1), .v (.accept 1 true), .s (.readCp 1), .s (.exit 1),
   .v (.lost 1 false false), .v (.accept 1 false), .v (.failed 1)] ++ exErr ++
  [.s (.globalGo 0), .s (.errDone 0)] ++ exWrapUp

/-- The receiver's thread 1 fails after it has counted a block that the sender's thread 1 has
written but not yet put into its history.  Its checkpoint reaches the sender through thread 0 and
is refused because it counts more blocks than the history has (ThreadTransferHistory.cpp:72-77).
Thread 1 goes on with a connection that nobody reads: it takes the block that thread 2 gives
back, and the block is lost. -/
def exEarly : List EEvent :=
  [.s (.discover ⟨[97], 10⟩), .s (.discover ⟨[98], 7⟩), .s .finishDiscovery,
   .s (.connect 0), .s (.connect 1), .s (.connect 2), .v (.accept1 0), .v (.accept1 1), .v (.accept1 2),
   .s (.pop 1 (exSrc 97 1 10)), .s (.openOk 1), .s (.write 1 10), .v (.recv 1), .v (.lost 1 false true), .v (.failed 1),
   .s (.pop 2 (exSrc 98 2 7)), .s (.openOk 2), .s (.sent 2 (.fail 0))] ++ exErr ++
  [.s (.sent 1 (.ok 5)), .v (.lost 2 false false), .s (.connect 2), .v (.accept 2 true), .s (.readCp 2),
   .s (.pop 1 (exAgain (exSrc 98 2 7) 0 0)), .s (.openOk 1), .s (.write 1 7), .s (.sent 1 (.ok 5)), .s (.lose 1),
   .s (.giveUp 1), .s (.exit 1), .s (.lose 2), .s (.giveUp 2), .s (.exit 2), .v (.lost 2 false false),
   .v (.accept 2 false), .v (.failed 2), .s (.globalGo 0), .s (.errDone 0)] ++ exErr ++
  [.s (.globalGo 0), .s (.errDone 0)] ++ exWrapUp

/-- The full C70 is false: in this execution nobody misbehaves, only connections break, the
sender reports OK and 6 of the 10 bytes of the only file are not at the receiver. -/
theorem C70_refused_checkpoint_loses_data : ∃ S, eRun { n := 2 } (ESys.init { n := 2 } 0 false) exRefused = some S ∧
    (senderReport (exInput 2 S)).errorCode = eOK ∧ S.silent = false ∧ exSrc 97 1 10 ∈ S.snd.created ∧
    S.landed = [⟨1, 0, 0⟩, ⟨1, 0, 4⟩] := by
  have h : (match eRun { n := 2 } (ESys.init { n := 2 } 0 false) exRefused with
      | some S => decide ((senderReport (exInput 2 S)).errorCode = eOK ∧ S.silent = false ∧ exSrc 97 1 10 ∈ S.snd.created ∧
          S.landed = [⟨1, 0, 0⟩, ⟨1, 0, 4⟩])
      | none => false) = true := by decide +kernel
  split at h
  · rename_i S hS
    exact ⟨S, hS, of_decide_eq_true h⟩
  · cases h

/-- Another execution: the sender reports OK and nothing of the second file is at the receiver. -/
theorem C70_early_checkpoint_loses_data : ∃ S, eRun { n := 3 } (ESys.init { n := 3 } 0 false) exEarly = some S ∧
    (senderReport (exInput 3 S)).errorCode = eOK ∧ S.silent = false ∧ exSrc 98 2 7 ∈ S.snd.created ∧
    S.landed = [⟨1, 0, 10⟩] := by
  have h : (match eRun { n := 3 } (ESys.init { n := 3 } 0 false) exEarly with
      | some S => decide ((senderReport (exInput 3 S)).errorCode = eOK ∧ S.silent = false ∧ exSrc 98 2 7 ∈ S.snd.created ∧
          S.landed = [⟨1, 0, 10⟩])
      | none => false) = true := by decide +kernel
  split at h
  · rename_i S hS
    exact ⟨S, hS, of_decide_eq_true h⟩
  · cases h

end Wdt
