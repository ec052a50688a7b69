import Verif.Lemmas.EndToEndOnward
import Verif.Props.EndToEnd
/-
C83: a transfer that still has a connection can be completed.
-/
namespace Wdt

/-- All of a block is at the receiver: every byte, and of an empty block the header. -/
def ESys.HasAll (S : ESys) (b : Source) : Prop :=
  (∀ p, b.offset ≤ p → p < b.offset + b.size → ∃ l ∈ S.landed, l.seqId = b.seqId ∧ l.lo ≤ p ∧ p < l.hi) ∧
  ∃ l ∈ S.landed, l.seqId = b.seqId ∧ l.hi = b.offset + b.size

/-- C83, first part: with encryption tags or checksums, whatever has happened so far (broken
connections, threads of both sides that ended with an error, in any number and order), as long as
there is one port whose sender thread and receiver thread have not ended, the transfer can be
completed: there is a continuation after which all threads of both sides have ended, the sender
thread of this port with success, and all of every block is at the receiver, except blocks of
files that could not be opened before this point.  So no state is a dead end.

Missing from the full statement: it is false without tag and checksum (see
`C83_breaks_alone_can_be_fatal`), and as in C70 after a refused global checkpoint or a receiver
thread that ended without leaving its checkpoint.  The continuation presumes that threads have
retries left: the counters are not in this model (C21 has them), here giving up is a step a thread
may but need not take. -/
theorem C83_can_complete_partial (c : ECfg) (hc : (c.tagged || c.footer) = true) (mb : Int) (del : Bool) (es : List EEvent)
    (S : ESys) (h : eRun c (ESys.init c mb del) es = some S) (hr : S.refused = false) (hs : S.silent = false)
    (t : Nat) (ht : t < c.n) (hsnd : ∀ ok, (S.port t).sph ≠ .ended ok) (hrcv : (S.rcv.th t).phase ≠ .failing)
    (hrcv' : (S.rcv.th t).phase ≠ .ended) :
    ∃ es' S', eRun c S es' = some S' ∧ (S'.port t).sph = .ended true ∧
      (∀ u, u < c.n → (S'.hist u).inUse = false ∧ (S'.rcv.th u).phase = .ended) ∧
      S'.snd.q.failed = S.snd.q.failed ∧
      ∀ b ∈ S'.snd.created, (∀ x ∈ S.snd.q.failed, x.key ≠ b.key) → S'.HasAll b := by
  have hg := (Good.init c mb del).run h
  have hf : EFine c mb del S := ⟨hc, hg, (ZInv.init c mb del).run hc (Good.init c mb del) h, hr, hs⟩
  obtain ⟨es', S', r1, r2, r3, r4, r5, r6, r7⟩ := can_complete hf ⟨ht, hsnd, hrcv, hrcv'⟩
  refine ⟨es', S', r1, r5, fun u hu => ⟨r6 u hu, r7 u hu⟩, r4, fun b hb hx => ?_⟩
  refine C70_done_means_arrived_partial c mb del (es ++ es') S' ?_ t r5 r2 r3 b hb ?_
  · exact eRun_append h r1
  · rw [r4]; exact hx

/-- C83, second part: with encryption tags or checksums, breaks of connections, any number of them
at any byte, never lose a transfer: if no thread has given up, then all of every block is at the
receiver already, or there is a continuation after which it is and the sender thread of any port
one likes has ended with success. -/
theorem C83_breaks_never_fatal (c : ECfg) (hc : (c.tagged || c.footer) = true) (mb : Int) (del : Bool) (es : List EEvent)
    (S : ESys) (h : eRun c (ESys.init c mb del) es = some S) (he : ∀ e ∈ es, NoGivingUp e) (t : Nat) (ht : t < c.n) :
    (∀ b ∈ S.snd.created, (∀ x ∈ S.snd.q.failed, x.key ≠ b.key) → S.HasAll b) ∨
    ∃ es' S', eRun c S es' = some S' ∧ (S'.port t).sph = .ended true ∧ S'.snd.q.failed = S.snd.q.failed ∧
      ∀ b ∈ S'.snd.created, (∀ x ∈ S.snd.q.failed, x.key ≠ b.key) → S'.HasAll b := by
  have hg := (Going.init c mb del).run hc he h
  cases hd : S.dec with
  | true =>
    refine .inl fun b hb hx => ?_
    obtain ⟨h1, h2⟩ := arrived_dec h hd hg.calm.2.2 hg.calm.2.1 b hb
    exact ⟨fun p hp1 hp2 => (h1 p hp1 hp2).resolve_right fun ⟨x, hx1, hk⟩ => hx x hx1 hk.1,
      h2.resolve_right fun ⟨x, hx1, hk⟩ => hx x hx1 hk⟩
  | false =>
    have ha := hg.alive hd ht
    obtain ⟨es', S', r1, r2, -, r3, r4⟩ := C83_can_complete_partial c hc mb del es S h hg.calm.2.2 hg.calm.2.1 t ht ha.snd ha.rcv1 ha.rcv2
    exact .inr ⟨es', S', r1, r2, r3, r4⟩

/-- One port, neither tag nor checksum.  The connection breaks before any byte of the only block
has arrived but behind its header, and again after 4 of its 10 bytes; the second checkpoint is
refused (ThreadTransferHistory.cpp:150-163).  On the level of bytes a break exactly there needs a
header of at least 256 bytes, that is a long name, see `C99_violated_long_name`; the names of this
model stand for any. -/
def exStuck : List EEvent :=
  [.s (.discover ⟨[97], 10⟩), .s .finishDiscovery, .s (.connect 0), .v (.accept1 0),
   .s (.pop 0 (exSrc 97 1 10)), .s (.openOk 0), .s (.write 0 10), .v (.recvPart 0 0 false), .s (.sent 0 (.ok 5)),
   .s (.lose 0), .s (.connect 0), .v (.accept 0 true), .s (.readCp 0),
   .s (.pop 0 (exAgain (exSrc 97 1 10) 10 0)), .s (.openOk 0), .s (.write 0 10), .v (.recvPart 0 4 false),
   .s (.sent 0 (.ok 5)), .s (.lose 0), .s (.connect 0), .v (.accept 0 true), .s (.readCp 0)]

/-- Without tag and checksum the second part of C83 is false: in this execution the only
connection breaks twice and is made again each time, no thread gives up for lack of retries, and
whatever happens afterwards the rest of the file does not arrive and the sender does not report
success. -/
theorem C83_breaks_alone_can_be_fatal : (∀ e ∈ exStuck, NoGivingUp e) ∧
    ∃ S, eRun { n := 1 } (ESys.init { n := 1 } 0 false) exStuck = some S ∧ exSrc 97 1 10 ∈ S.snd.created ∧ S.snd.q.failed = [] ∧
      ∀ es' S', eRun { n := 1 } S es' = some S' → S'.landed = [⟨1, 0, 0⟩, ⟨1, 0, 4⟩] ∧ (S'.port 0).sph = .ended false := by
  refine ⟨by decide +kernel, ?_⟩
  have h : (match eRun { n := 1 } (ESys.init { n := 1 } 0 false) exStuck with
      | some S => decide (exSrc 97 1 10 ∈ S.snd.created ∧ S.snd.q.failed = [] ∧ S.landed = [⟨1, 0, 0⟩, ⟨1, 0, 4⟩] ∧
          (S.port 0).sph = .ended false ∧ (S.port 0).hd = some [])
      | none => false) = true := by decide +kernel
  split at h
  · rename_i S hS
    obtain ⟨h1, h2, h3, h4, h5⟩ := of_decide_eq_true h
    refine ⟨S, hS, h1, h2, fun es' S' hr => ?_⟩
    have hg := (Good.init { n := 1 } 0 false).run hS
    have hst : ∀ v, v ≠ 0 → (S.port v).sph = .start := by
      intro v hv
      by_contra hne
      have := hg.p.out v hne
      simp only at this
      omega
    have hd : EDead S := by
      refine ⟨fun v => ?_, fun v => ?_, h4⟩
      · by_cases hv : v = 0
        · subst hv; exact .inr h5
        · exact .inl ((hg.p.loc v).start (hst v hv)).1
      · by_cases hv : v = 0
        · subst hv; exact .inl h4
        · exact .inr (hst v hv)
    obtain ⟨k1, k2⟩ := hd.run (Nat.le_refl 1) hg.p hr
    exact ⟨k2.trans h3, k1.zero⟩
  · cases h

/-! ### The hypotheses can be met -/

/-- Two files, two ports, checksums.  Connection 1 breaks within the first file and is made again,
then the receiver's thread 1 fails; the sender's thread 1 gives up.  Port 0 is left, nothing of
the second file has arrived. -/
def exOneLeft : List EEvent :=
  [.s (.discover ⟨[97], 10⟩), .s (.discover ⟨[98], 7⟩), .s .finishDiscovery, .s (.connect 0), .s (.connect 1),
   .v (.accept1 0), .v (.accept1 1), .s (.pop 1 (exSrc 97 1 10)), .s (.openOk 1), .s (.write 1 10),
   .v (.recvPart 1 4 false), .s (.sent 1 (.ok 5)), .s (.lose 1), .s (.connect 1), .v (.accept 1 true), .s (.readCp 1),
   .s (.pop 1 (exSrc 98 2 7)), .s (.openOk 1), .s (.write 1 7), .v (.lost 1 true true), .v (.failed 1),
   .s (.sent 1 (.ok 5)), .s (.lose 1), .s (.giveUp 1), .s (.exit 1)]

example : ∃ S, eRun { n := 2, footer := true } (ESys.init { n := 2, footer := true } 0 false) exOneLeft = some S ∧
    S.refused = false ∧ S.silent = false ∧ (S.port 0).sph = .sending ∧ (S.rcv.th 0).phase = .reading ∧
    (S.port 1).sph = .ended false ∧ (S.rcv.th 1).phase = .ended ∧ S.landed = [⟨1, 0, 4⟩] ∧ S.snd.created.length = 2 := by
  have h : (match eRun { n := 2, footer := true } (ESys.init { n := 2, footer := true } 0 false) exOneLeft with
      | some S => decide (S.refused = false ∧ S.silent = false ∧ (S.port 0).sph = .sending ∧ (S.rcv.th 0).phase = .reading ∧
          (S.port 1).sph = .ended false ∧ (S.rcv.th 1).phase = .ended ∧ S.landed = [⟨1, 0, 4⟩] ∧ S.snd.created.length = 2)
      | none => false) = true := by decide +kernel
  split at h
  · rename_i S hS
    exact ⟨S, hS, of_decide_eq_true h⟩
  · cases h

/-- The same breaks as in `exStuck`, with a checksum: the thread goes on. -/
example : (∀ e ∈ exStuck, NoGivingUp e) ∧
    (eRun { n := 1, footer := true } (ESys.init { n := 1, footer := true } 0 false) exStuck).map
      (fun S => ((S.port 0).sph, S.landed)) = some (.sending, [⟨1, 0, 0⟩, ⟨1, 0, 4⟩]) := by
  constructor <;> decide +kernel

end Wdt
