import Verif.Model.BrokenConn

/-!
# Connections that break or damage what they carry

As `Model/BrokenConn.lean`, with the same simplifications, but what arrives at the receiver thread on a
connection is given: the bytes that were sent may have been damaged on the way.
-/

namespace Wdt

/-- A connection on which `got` arrives at the receiver thread, whatever was sent.  Every source
the sender took is added to its history (SenderThread.cpp:298-309); the receiver thread gives up
the connection, because it ends early or because of a wrong checksum
(ReceiverThread.cpp:621-656), and on the next connection the sender reads its checkpoint and gives
back what was not received (SenderThread.cpp:151-206). -/
def bArrive (c : BCfg) (S : BSys) (t : BTry) (got : Bytes) : Except Fault BRes :=
  if ¬ (t.sources ++ t.rest).Perm S.queue then .ok .blocked else
  match t.receive c got with
  | .error e => .error e
  | .ok (obs, .reconnect _) =>
    let cp := obs.foldl (RcvCp.step c.st.enableChecksum) S.cp
    let h := t.sources.foldl (fun h s => (addSource h s).1) S.hist
    let S' : BSys := ⟨h, cp, S.written ++ obs.filterMap RObs.write, t.rest⟩
    match setCheckpoint h cp.msg false with
    | .error e => .error e
    | .ok (.invalid, _, _) => .ok (.refused S')
    | .ok (_, h', l) => .ok (.next { S' with hist := h', queue := t.rest ++ l.map Prod.snd })
  | .ok _ => .error .check

/-- Any number of them (SenderThread.cpp:968-980, ReceiverThread.cpp:990-1002: the loops over the
states of the two threads). -/
def aRun (c : BCfg) : BSys → List (BTry × Bytes) → Except Fault BRes
  | S, [] => .ok (.next S)
  | S, (t, got) :: ts =>
    match bArrive c S t got with
    | .error e => .error e
    | .ok (.next S') => aRun c S' ts
    | .ok r => .ok r

end Wdt
