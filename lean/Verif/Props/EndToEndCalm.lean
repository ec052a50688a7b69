import Verif.Lemmas.EndToEndCalm
import Verif.Props.EndToEnd
/-
C70 when no thread of the receiver gives up.
-/
namespace Wdt

/-- C70 without exceptions when no receiver thread ends with an error: connections may break at
any byte and any number of times, sender threads may give up; once one sender thread has ended
well, every byte of every block is at the receiver or its file could not be opened.  The two
executions in which data is lost need a receiver thread that gives up. -/
theorem C70_unless_receiver_thread_fails (c : ECfg) (mb : Int) (del : Bool) (es : List EEvent) (S : ESys)
    (h : eRun c (ESys.init c mb del) es = some S) (h1 : ∀ u, EEvent.v (.failed u) ∉ es)
    (h2 : ∀ u, EEvent.v (.silentEnd u) ∉ es) (t : Nat) (ht : (S.port t).sph = .ended true) (b : Source)
    (hb : b ∈ S.snd.created) (hf : ∀ x ∈ S.snd.q.failed, x.key ≠ b.key) :
    (∀ p, b.offset ≤ p → p < b.offset + b.size → ∃ l ∈ S.landed, l.seqId = b.seqId ∧ l.lo ≤ p ∧ p < l.hi) ∧
    ∃ l ∈ S.landed, l.seqId = b.seqId ∧ l.hi = b.offset + b.size := by
  have hc := Calm.run (PInv.init c mb del) ⟨rfl, rfl, rfl⟩ h1 h2 h
  exact C70_done_means_arrived_partial c mb del es S h t ht hc.2.2 hc.2.1 b hb hf

/-- Two files; connection 1 breaks after 4 of 10 bytes and is made again. -/
def exCalm : List EEvent :=
  [.s (.discover ⟨[97], 10⟩), .s (.discover ⟨[98], 7⟩), .s .finishDiscovery, .s (.connect 0), .s (.connect 1),
   .v (.accept1 0), .v (.accept1 1), .s (.pop 1 (exSrc 97 1 10)), .s (.openOk 1), .s (.write 1 10),
   .v (.recvPart 1 4 false), .s (.sent 1 (.ok 5)), .s (.lose 1), .s (.connect 1), .v (.accept 1 true), .s (.readCp 1),
   .s (.pop 0 (exSrc 98 2 7)), .s (.openOk 0), .s (.write 0 7), .v (.recv 0), .s (.sent 0 (.ok 5)),
   .s (.pop 1 (exAgain (exSrc 97 1 10) 10 4)), .s (.openOk 1), .s (.write 1 6), .v (.recv 1), .s (.sent 1 (.ok 5)),
   .s (.sendDone 0), .v (.recvDone 0), .s (.sendDone 1), .v (.recvDone 1), .v (.markWaiting 0), .v (.markWaiting 1),
   .v (.look 1), .v (.query 1), .v (.finish 1), .v (.writeDone 1), .v (.doneSent 1 true), .s (.readDone 1), .s (.doneEnd 1 true)]

example : ∃ S, eRun { n := 2 } (ESys.init { n := 2 } 0 false) exCalm = some S ∧ (S.port 1).sph = .ended true ∧
    S.snd.created.length = 2 ∧ S.snd.q.failed = [] ∧ S.landed = [⟨1, 0, 4⟩, ⟨2, 0, 7⟩, ⟨1, 4, 10⟩] := by
  have h : (match eRun { n := 2 } (ESys.init { n := 2 } 0 false) exCalm with
      | some S => decide ((S.port 1).sph = .ended true ∧ S.snd.created.length = 2 ∧
          S.snd.q.failed = [] ∧ S.landed = [⟨1, 0, 4⟩, ⟨2, 0, 7⟩, ⟨1, 4, 10⟩])
      | none => false) = true := by decide +kernel
  split at h
  · rename_i S hS
    exact ⟨S, hS, of_decide_eq_true h⟩
  · cases h

example : (∀ u, EEvent.v (.failed u) ∉ exCalm) ∧ ∀ u, EEvent.v (.silentEnd u) ∉ exCalm := by
  constructor <;> intro u <;> simp [exCalm]

end Wdt
