import Verif.Model.History
/-
Model of what the sender does with the blocks it has sent when the receiver asks for another protocol
version: `TransferHistoryController::handleVersionMismatch`
(/repo/util/ThreadTransferHistory.cpp:257-270), called by the one thread that is let through while all
others wait (/repo/SenderThread.cpp:885-896; which thread that is and how the version is agreed on is in
`Abort.lean`).
-/
namespace Wdt

/-- `handleVersionMismatch` (ThreadTransferHistory.cpp:257-270) over the histories in some order, that
of an `unordered_map`: `true` for `OK`, `false` for `ERROR`.  What `returnUnackedSourcesToQueue` finds
wrong is not looked at (lines 129-134, 267). -/
def handleMismatch : SSys → List Nat → Res (Bool × SSys)
  | s, [] => .ok (true, s)
  | s, t :: ts =>
    match s.threads[t]? with
    | none => .blocked
    | some th =>
      if 0 < th.hist.numAcked then .ok (false, s)
      else
        match sStep s (.returnUnacked t) with
        | .ok s' => handleMismatch s' ts
        | .fault f => .fault f
        | .blocked => .blocked

end Wdt
