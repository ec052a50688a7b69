import Verif.Model.BrokenConn
import Verif.Model.SockReceive
/-
Model of a sender thread and a receiver thread over several connections as in
Model/BrokenConn.lean, with encryption: every connection carries the settings of the
encryption and the encrypted bytes of `sendStream` with tags and new vectors, and may break after
any byte.

Simplified as there and in Model/EncSocket.lean.  In the direction from the receiver to the sender
nothing is encrypted: the checkpoint is handed over as a value.
-/
namespace Wdt

/-- What both sides know of the encryption (WdtOptions.h:351-358, WdtTransferRequest.h:203): cipher with the key, its
type, tag interval, interval for new vectors. -/
structure BECfg where
  C : Cipher
  encType : Int
  T : Int
  I : Int

/-- `encryptionTypeToTagLen` is not 0 (util/EncryptionUtils.cpp:40-42). -/
def BECfg.tagged (E : BECfg) : Bool := decide (E.encType = ENC_AES128_GCM)

/-- One connection: in addition the first vector, the later ones, `buf_` of the writing socket, last byte
of `buf_` of the reading socket, results of its reads, how the stream is divided into calls of `write`, how many of the
blocks that arrived completely are before a tag that was verified. -/
structure ETry where
  base : BTry
  iv : Bytes
  ivs : Nat → Bytes
  ebuf : Bytes
  junk : UInt8
  io : Nat → Option Nat
  writes : List Bytes
  verified : Nat

/-- A block that arrived completely; any block whose header arrived. -/
def RObs.whole : RObs → Bool
  | .block _ _ w => w
  | _ => false
def RObs.isBlock : RObs → Bool
  | .block _ _ _ => true
  | _ => false

/-- The checkpoint behind a connection.  With tags and without checksums a block is counted when a
tag behind it was verified (ReceiverThread.cpp:659-660, 684-689, 1016-1019), those that wait are forgotten
when the connection is lost (205), and a part of a block never counts (482-491).
Simplified: `verified` blocks were verified, at most as many as arrived completely (`none` if that is
not so); where the tags are is left open. -/
def RcvCp.behind (tagged footer : Bool) (verified : Nat) (cp : RcvCp) (obs : List RObs) : Option RcvCp :=
  if tagged && !footer then
    if (obs.filter RObs.whole).length < verified then none
    else some { numBlocks := cp.numBlocks + verified, last := if obs.any RObs.isBlock then none else cp.last }
  else some (obs.foldl (RcvCp.step footer) cp)

/-- What the sender writes to the socket (`none`: it is not divided like that). -/
def ETry.wire (E : BECfg) (t : ETry) (stream : Bytes) : Except Fault (Option Bytes) :=
  if t.writes.flatten ≠ stream ∨ [] ∈ t.writes then .ok none
  else match encHello E.encType t.iv E.T t.ebuf with
    | .error e => .error e
    | .ok hello => match encWrites E.C t.ivs E.T E.I t.writes { st := { iv := t.iv } } with
      | .error e => .error e
      | .ok w => .ok (some (hello ++ w.out))

/-- What a receiver thread makes of some bytes of it (`sReceive`). -/
def ETry.receive (E : BECfg) (c : BCfg) (t : ETry) (bytes : Bytes) : Except Fault (List RObs × ROut × SrvSock) :=
  sReceive (encSock E.C E.encType t.junk t.io E.I) c.crc c.st.transferId (t.base.items.length + 2)
    (.start t.base.rbuf c.rver t.base.footer0) { encOn := true, r := { st := { iv := [] }, net := { rest := bytes } } }

/-- A connection that breaks, see `bBreak`.  It is `blocked` if all has arrived. -/
def eBreak (E : BECfg) (c : BCfg) (S : BSys) (t : ETry) : Except Fault BRes :=
  if ¬ (t.base.sources ++ t.base.rest).Perm S.queue then .ok .blocked else
  match t.base.stream c with
  | .error e => .error e
  | .ok stream =>
    match t.wire E stream with
    | .error e => .error e
    | .ok none => .ok .blocked
    | .ok (some bytes) =>
      match t.receive E c (bytes.take t.base.arrive) with
      | .error e => .error e
      | .ok (obs, .reconnect _, _) =>
        match RcvCp.behind E.tagged c.st.enableChecksum t.verified S.cp obs with
        | none => .ok .blocked
        | some cp =>
          let h := t.base.sources.foldl (fun h s => (addSource h s).1) S.hist
          let S' : BSys := ⟨h, cp, S.written ++ obs.filterMap RObs.write, t.base.rest⟩
          match setCheckpoint h cp.msg false with
          | .error e => .error e
          | .ok (.invalid, _, _) => .ok (.refused S')
          | .ok (_, h', l) => .ok (.next { S' with hist := h', queue := t.base.rest ++ l.map Prod.snd })
      | .ok (_, .done _ _ _, _) => .ok .blocked
      | .ok _ => .error .check

/-- Any number of them. -/
def xRun (E : BECfg) (c : BCfg) : BSys → List ETry → Except Fault BRes
  | S, [] => .ok (.next S)
  | S, t :: ts =>
    match eBreak E c S t with
    | .error e => .error e
    | .ok (.next S') => xRun E c S' ts
    | .ok r => .ok r

/-- A connection that does not break, see `bGood`.  All blocks are verified when the thread has seen
the last tag (ReceiverThread.cpp:896-902). -/
def eGood (E : BECfg) (c : BCfg) (S : BSys) (t : ETry) : Except Fault BRes :=
  if ¬ (t.base.sources.Perm S.queue) then .ok .blocked else
  match t.base.stream c with
  | .error e => .error e
  | .ok stream =>
    match t.wire E stream with
    | .error e => .error e
    | .ok none => .ok .blocked
    | .ok (some bytes) =>
      match t.receive E c bytes with
      | .error e => .error e
      | .ok (obs, .done _ _ _, _) =>
        match RcvCp.behind E.tagged c.st.enableChecksum (obs.filter RObs.whole).length S.cp obs with
        | none => .error .check
        | some cp =>
          .ok (.next ⟨markAll (t.base.sources.foldl (fun h s => (addSource h s).1) S.hist), cp,
            S.written ++ obs.filterMap RObs.write, []⟩)
      | .ok _ => .error .check

end Wdt
