import Verif.Model.EndToEnd
/-
Model of a receiver that serves one transfer after another (`runForever`, `-run_as_daemon`).

Simplifications.  Those of `EndToEnd`.  There the receiver closes a listening socket when its
thread fails; a receiver that serves many transfers keeps it open (ReceiverThread.cpp:913-920), so
here a connection made after the failure is refused where in the code it stays unanswered until
the next session.  Connections do not outlive a session.
-/
namespace Wdt

/-- A receiver that serves many transfers.  `started`: `hasNewTransferStarted_` (Receiver.h:213),
set when a thread of it accepts the first connection (Receiver.cpp:70-90 through
ReceiverThread.cpp:185-189).  `stale`: what is in `blocksWaitingVerification_`
(ReceiverThread.h:335) of a thread that has ended or is about to; `Port.unver` forgets it at that
moment, because within one transfer it does not matter any more. -/
structure Daemon where
  sys : ESys
  started : Bool := false
  stale : Nat → List WBlock := fun _ => []

/-- Steps: of the transfer; or all threads of the receiver have ended, it goes on to its next
session and a new sender comes with its own options. -/
inductive DEvent where
  | ev (e : EEvent)
  | next (blockMb : Int) (deleteFiles : Bool)
deriving DecidableEq, Repr

/-- Is this step the acceptance of a first connection? -/
def EEvent.accepts : EEvent → Bool
  | .v (.accept1 _) => true
  | _ => false

/-- The receiver thread that with this step is on its way to END without ACCEPT_WITH_TIMEOUT, the
only place that clears `blocksWaitingVerification_` (ReceiverThread.cpp:205). -/
def EEvent.quits : EEvent → Option Nat
  | .v (.recvPart t _ true) => some t
  | .v (.lost t _ true) => some t
  | .v (.silentEnd t) => some t
  | _ => none

/-- What the step leaves in `blocksWaitingVerification_` of threads that end. -/
def staleAfter (d : Daemon) (e : EEvent) : Nat → List WBlock :=
  match e.quits with
  | some t => upd d.stale t (d.stale t ++ (d.sys.port t).unver)
  | none => d.stale

/-- `endCurGlobalSession` (Receiver.cpp:96-112), run by the last thread, and then
`Receiver::start` in long-running mode (Receiver.cpp:460-478): the threads are joined, reset
(ReceiverThread.cpp:1052-1061) and started again, the controller is reset.  `Receiver::checkpoints_`
is cleared only if the transfer has started, `blocksWaitingVerification_` not at all.  The sender
is a new one. -/
def Daemon.nextSession (c : ECfg) (d : Daemon) (blockMb : Int) (deleteFiles : Bool) : Daemon :=
  { sys := { ESys.init c blockMb deleteFiles with
      rcv := { cps := if d.started then [] else d.sys.rcv.cps }
      port := fun t => { unver := d.stale t }
      cpv := if d.started then fun _ => {} else d.sys.cpv } }

/-- One step. -/
def dStep (c : ECfg) (d : Daemon) : DEvent → Option Daemon
  | .ev e =>
    match eStep c d.sys e with
    | some S => some { sys := S, started := d.started || e.accepts, stale := staleAfter d e }
    | none => none
  | .next mb del =>
    if (List.range c.n).all fun t => (d.sys.rcv.th t).phase == .ended then some (d.nextSession c mb del) else none

/-- An execution. -/
def dRun (c : ECfg) : Daemon → List DEvent → Option Daemon
  | d, [] => some d
  | d, e :: es =>
    match dStep c d e with
    | some d' => dRun c d' es
    | none => none

/-- The receiver as it is made, with the first sender. -/
def Daemon.init (c : ECfg) (blockMb : Int) (deleteFiles : Bool) : Daemon := { sys := ESys.init c blockMb deleteFiles }

end Wdt
