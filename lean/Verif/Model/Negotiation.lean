import Verif.Model.Protocol
/-
Model of protocol version negotiation between a sender and a receiver
(/repo/ReceiverThread.cpp:300-322, /repo/SenderThread.cpp:829-952).
-/
namespace Wdt

/-! ### Version negotiation -/

/-- Answer of a receiver thread to a SETTINGS command. -/
inductive RecvAnswer where
  | accept
  | versionMismatch (v : Int)
  | incompatible
deriving DecidableEq, Repr

/-- `processSettingsCmd` version part (ReceiverThread.cpp:300-322) and the
version sent by `sendAbortCmd` (ReceiverThread.cpp:858-864).  Returns the
receiver thread's new version and the answer. -/
def receiverOnSettings (senderVer recvVer : Int) : Int × RecvAnswer :=
  if senderVer ≠ recvVer then
    if negotiateProtocol senderVer recvVer = 0 then (recvVer, .incompatible)
    else if negotiateProtocol senderVer recvVer ≠ senderVer then
      (negotiateProtocol senderVer recvVer, .versionMismatch (negotiateProtocol senderVer recvVer))
    else (negotiateProtocol senderVer recvVer, .accept)
  else (recvVer, .accept)

/-- Sender's handling of a VERSION_MISMATCH abort carrying version `n`
(SenderThread.cpp:853-865 and 895-916): the new version, or `none` if it gives
up; version 0 passes the first test and then fails `WDT_CHECK_GT` at line 911.
Simplified: one thread's answer stands for all (if threads disagree the code
gives up, line 899-907). -/
def senderOnMismatch (n senderVer : Int) : Except Fault (Option Int) :=
  if negotiateProtocol n senderVer = n then
    if n > 0 then .ok (some n) else .error .check
  else .ok none

/-- Outcome of the negotiation. -/
inductive Handshake where
  | agreed (senderVer recvVer : Int)
  | failed
  | undecided
deriving DecidableEq, Repr

/-- Connect, send settings, react to the answer, reconnect: at most `rounds`
SETTINGS messages. -/
def handshake : Nat → Int → Int → Except Fault Handshake
  | 0, _, _ => .ok .undecided
  | k + 1, s, r =>
    match receiverOnSettings s r with
    | (r', .accept) => .ok (.agreed s r')
    | (_, .incompatible) => .ok .failed
    | (r', .versionMismatch n) =>
      match senderOnMismatch n s with
      | .error f => .error f
      | .ok none => .ok .failed
      | .ok (some s') => handshake k s' r'

/-- Loop over the versions negotiated by the sender threads, 0 for a thread
without one (SenderThread.cpp:897-911): `ok none` = "Different threads negotiated
different protocols", check fault = `WDT_CHECK_GT(negotiatedProtocol, 0)`. -/
def combineNegotiated : Int → List Int → Except Fault (Option Int)
  | acc, [] => if acc > 0 then .ok (some acc) else .error .check
  | acc, v :: vs =>
    if v > 0 then
      if acc > 0 ∧ acc ≠ v then .ok none else combineNegotiated v vs
    else combineNegotiated acc vs

/-! ### Footer type after negotiation -/

/-- `CHECKSUM_VERSION` (Protocol.cpp:21). -/
def CHECKSUM_VERSION : Int := 12

/-- Part of a sender thread's state that negotiation touches. -/
structure SenderThreadVer where
  version : Int
  /-- `footerType_ == CHECKSUM_FOOTER` -/
  footer : Bool
deriving DecidableEq, Repr

/-- `setFooterType` (SenderThread.cpp:944-952). -/
def footerFor (version : Int) (enableChecksum : Bool) : Bool :=
  decide (version ≥ CHECKSUM_VERSION) && enableChecksum

/-- A thread at its start (SenderThread.cpp:963 and constructor). -/
def SenderThreadVer.init (version : Int) (enableChecksum : Bool) : SenderThreadVer :=
  { version, footer := footerFor version enableChecksum }

/-- Effect of a resolved version mismatch on a thread (SenderThread.cpp:915-917
for the thread that ran the funnel, 936 for all others; only the former calls
`setFooterType`). -/
def SenderThreadVer.resolve (t : SenderThreadVer) (first : Bool) (negotiated : Int)
    (enableChecksum : Bool) : SenderThreadVer :=
  { version := negotiated, footer := if first then footerFor negotiated enableChecksum else t.footer }

/-- What the receiver concludes from the settings it gets from such a thread
(Protocol.cpp:508-519 and ReceiverThread.cpp:348-353): before version 12 there is
no flags byte and no footer is expected. -/
def receiverExpectsFooter (t : SenderThreadVer) : Bool :=
  decide (t.version ≥ SETTINGS_FLAG_VERSION) && t.footer

end Wdt
