import Verif.Lemmas.SockReceive
import Verif.Props.EncSettings
import Verif.Props.SenderStream
/-
C97: an encrypted connection makes a receiver thread do what the same stream makes
it do in the clear.

The receiver thread of `Model/SockReceive.lean` reads from the encrypted socket; it
is compared with the thread of `Model/ReceiverStream.lean` that reads the plaintext.
-/
namespace Wdt

/-- The socket after reads of the given sizes, latest first. -/
def encState (C : Cipher) (t : Int) (junk : UInt8) (io : Nat → Option Nat) (I : Int) (s₀ : SrvSock) : List Int → SrvSock
  | [] => s₀
  | n :: l => match srvRead C t junk io I n false (encState C t junk io I s₀ l) with
    | .ok (_, _, s) => s
    | .error _ => encState C t junk io I s₀ l

/-- How the encrypted socket cuts the plaintext. -/
def encCut (C : Cipher) (t : Int) (junk : UInt8) (io : Nat → Option Nat) (I : Int) (s₀ : SrvSock) : List Int → Nat
  | [] => 0
  | n :: l => match srvRead C t junk io I n false (encState C t junk io I s₀ l) with
    | .ok (_, d, _) => d.length - 1
    | .error _ => 0

theorem wire_length {C : Cipher} {ivs : Nat → Bytes} {T I : Int} (s : WSt) (a : Bytes) :
    a.length ≤ (wire C ivs T I s a).1.length := by
  induction a generalizing s with
  | nil => simp
  | cons x xs ih =>
    have := ih (afterByte C x (preamble C ivs T I s).2)
    simp only [wire, List.length_append, List.length_cons]; omega

/-- The socket, after reads of the sizes in `net.asked`, is in step with the writer,
who wrote `net.rest` since. -/
def EncStep (C : Cipher) (ivs : Nat → Bytes) (T I : Int) (t : Int) (junk : UInt8) (io : Nat → Option Nat) (s₀ : SrvSock)
    (s : SrvSock) (net : RNet) : Prop :=
  s = encState C t junk io I s₀ net.asked ∧ net.rest.length ≤ s.r.net.rest.length ∧
  ∃ r ws, (∀ n, 0 < n → srvRead C t junk io I n false s
        = srvRead C t junk io I n false { encOn := true, settings := some T, r := r }) ∧
    InSync C ivs T I r ws net.rest ∧ (r.err = eOK ∨ (net.rest = [] ∧ r.err = eSOCKET_READ_ERROR)) ∧
    ¬TagAt T (ws.st.total + net.rest.length)

theorem enc_sim (C : Cipher) (ivs : Nat → Bytes) (hC : CipherOK C ivs) (t : Int) (T I : Int) (hT : 0 ≤ T)
    (junk : UInt8) (frag : Nat → Nat) (s₀ : SrvSock) :
    SockSim (encSock C t junk (fun k => some (frag k)) I) (encCut C t junk (fun k => some (frag k)) I s₀)
      (EncStep C ivs T I t junk (fun k => some (frag k)) s₀) where
  left s net h := h.2.1
  read := by
    intro s net n h hn
    obtain ⟨hst, _, r, ws, hrd, hsync, herr, hno⟩ := h
    have hread : (encSock C t junk (fun k => some (frag k)) I).read n s
        = srvRead C t junk (fun k => some (frag k)) I n false s := rfl
    -- what the encrypted socket does
    have key : ∃ (m : Nat) (ret : Int) (r' : EncR),
        encRead C (fun k => some (frag k)) T I n false r = .ok (ret, net.rest.take m, r')
        ∧ InSync C ivs T I r' (wire C ivs T I ws (net.rest.take m)).2 (net.rest.drop m)
        ∧ m ≤ net.rest.length ∧ (m : Int) ≤ n ∧ (m = 0 ↔ net.rest = [])
        ∧ (m = 0 → ret ≤ 0) ∧ (m ≠ 0 → ret = m)
        ∧ (r'.err = eOK ∨ (net.rest.drop m = [] ∧ r'.err = eSOCKET_READ_ERROR)) := by
      rcases herr with herr | ⟨hnil, herr⟩
      · obtain ⟨m, r', e, hok⟩ := encRead_sync hC frag hT hsync herr hn false (.inr hno)
        exact ⟨m, m, r', e, hok.sync, hok.le, hok.len, hok.zero hn, fun h => by omega, fun _ => rfl, hok.err⟩
      · refine ⟨0, -1, r, ?_, ?_, by omega, by omega, by simp [hnil], fun _ => by omega, fun h => absurd rfl h, ?_⟩
        · unfold encRead
          rw [if_neg (by omega), if_pos (by rw [herr]; decide)]
          rfl
        · simpa [wire] using hsync
        · right; rw [hnil]; exact ⟨rfl, herr⟩
    obtain ⟨m, ret, r', e, hsync', hml, hmn, hm0, hret0, hret1, herr'⟩ := key
    have e' : srvRead C t junk (fun k => some (frag k)) I n false s
        = .ok (ret, net.rest.take m, { encOn := true, settings := some T, r := r' }) := by
      rw [hrd n hn, srvRead_enc, e]
    have htake : (netRead (encCut C t junk (fun k => some (frag k)) I s₀) n net).1 = net.rest.take m
        ∧ (netRead (encCut C t junk (fun k => some (frag k)) I s₀) n net).2.rest = net.rest.drop m := by
      have hcut : encCut C t junk (fun k => some (frag k)) I s₀ (n :: net.asked) = m - 1 := by
        rw [encCut, ← hst, e']
        simp only [List.length_take]
        omega
      unfold netRead
      rw [hcut]
      by_cases hz : m = 0
      · have := hm0.1 hz
        simp [this]
      · have : min (m - 1 + 1) n.toNat = m := by omega
        rw [this]
        exact ⟨rfl, rfl⟩
    refine ⟨ret, _, by rw [hread, e', htake.1], ⟨?_, ?_, r', (wire C ivs T I ws (net.rest.take m)).2, fun _ _ => rfl, ?_, ?_, ?_⟩, ?_, ?_⟩
    · show _ = encState C t junk (fun k => some (frag k)) I s₀ (n :: net.asked)
      rw [encState, ← hst, e']
    · rw [htake.2, hsync'.inp]; exact wire_length _ _
    · rw [htake.2]; exact hsync'
    · rw [htake.2]; exact herr'
    · rw [htake.2, wire_total, List.length_take, List.length_drop]
      have : ws.st.total + ((min m net.rest.length : Nat) : Int) + ((net.rest.length - m : Nat) : Int)
          = ws.st.total + net.rest.length := by omega
      rw [this]; exact hno
    · intro h
      rw [htake.1] at h
      apply hret0
      rcases List.take_eq_nil_iff.1 h with h | h
      · exact h
      · exact hm0.2 h
    · intro h
      rw [htake.1] at h ⊢
      have hm : m ≠ 0 := by intro hc; rw [hc] at h; exact h rfl
      rw [hret1 hm, List.length_take]
      omega

/-- **C97** (partial: the plaintext does not end where a tag is due, see
`C97_violated_boundary`; no timeouts, see `C35_violated_timeout`).  However the sender
cuts its stream into writes, whatever the tag and vector change intervals, whatever way
the network cuts the encrypted bytes: the receiver thread does on the encrypted
connection what it does on an unencrypted one for some way of cutting the plaintext. -/
theorem C97_transparent_partial (C : Cipher) (ivs : Nat → Bytes) (hC : CipherOK C ivs) (t : Int)
    (ht : t = ENC_AES128_CTR ∨ t = ENC_AES128_GCM) (iv : Bytes) (hiv : iv.length = 16) (T I : Int)
    (hT : 0 ≤ T) (hT' : T ≤ int32Max) (hg : T > 0 → t = ENC_AES128_GCM) (junk : UInt8)
    (hbuf : Bytes) (hhb : hbuf.length = 23) (writes : List Bytes) (hw : ∀ b ∈ writes, b ≠ [])
    (hend : ¬TagAt T writes.flatten.length) :
    ∃ hello w, encHello t iv T hbuf = .ok hello ∧ encWrites C ivs T I writes (.fresh iv) = .ok w ∧
      ∀ (frag : Nat → Nat), ∃ cut : List Int → Nat, ∀ (crc : Int → UInt8 → Int) (id buf : Bytes) (ver : Int)
        (footer : Bool) (fuel : Nat) (obs : List RObs) (o : ROut),
        receive cut crc id fuel (.fresh buf writes.flatten ver footer) = .ok (obs, o) →
        ∃ s', sReceive (encSock C t junk (fun k => some (frag k)) I) crc id fuel (.start buf ver footer)
          (.fresh (hello ++ w.out)) = .ok (obs, o, s') := by
  have ht0 : 0 ≤ t := by rcases ht with h | h <;> rw [h] <;> decide
  have ht1 : t < 128 := by rcases ht with h | h <;> rw [h] <;> decide
  refine ⟨_, _, encHello_bytes t ht0 ht1 iv hiv T hbuf hhb, encWrites_wire hT writes _ hw (by simp [EncW.fresh]), ?_⟩
  intro frag
  have e : ((EncW.fresh iv).put (wire C ivs T I (EncW.fresh iv).ref writes.flatten)).out
      = (wire C ivs T I ⟨{ iv := iv }, 0⟩ writes.flatten).1 := by
    simp [EncW.put, EncW.fresh, EncW.ref]
  rw [e]
  generalize hs₀ : SrvSock.fresh (ENCRYPTION_CMD :: helloBytes t iv T ++ (wire C ivs T I ⟨{ iv := iv }, 0⟩ writes.flatten).1) = s₀
  refine ⟨encCut C t junk (fun k => some (frag k)) I s₀, ?_⟩
  intro crc id buf ver footer fuel obs o h
  refine sReceive_sim (enc_sim C ivs hC t T I hT junk frag s₀) crc id fuel _ _ s₀ ⟨{ rest := [] }, rfl⟩ ?_ obs o h
  refine ⟨rfl, ?_, { st := { iv := iv }, net := { rest := (wire C ivs T I ⟨{ iv := iv }, 0⟩ writes.flatten).1, k := 2 } },
    ⟨{ iv := iv }, 0⟩, ?_, ⟨rfl, rfl, by simp⟩, .inl rfl, by simpa [RcvConn.fresh] using hend⟩
  · rw [← hs₀]
    have := wire_length (C := C) (ivs := ivs) (T := T) (I := I) ⟨{ iv := iv }, 0⟩ writes.flatten
    simp only [RcvConn.fresh, SrvSock.fresh, List.length_append, List.length_cons]
    omega
  · intro n hn
    rw [← hs₀]
    exact srvRead_first C t ht0 ht1 iv hiv T I hT hT' hg junk frag _ n hn false

/-- **C97**, delivery (partial: as above and as in `C34_delivery_partial`).  A sender
thread sends settings, any blocks, SIZE commands and DONE over an encrypted
connection, in writes of any sizes.  However the network cuts the encrypted bytes, the
receiver thread accepts the settings, writes exactly the sent blocks with their data
and gets the sender's number of blocks. -/
theorem C97_delivery_partial (C : Cipher) (ivs : Nat → Bytes) (hC : CipherOK C ivs) (t : Int)
    (ht : t = ENC_AES128_CTR ∨ t = ENC_AES128_GCM) (iv : Bytes) (hiv : iv.length = 16) (T I : Int)
    (hT : 0 ≤ T) (hT' : T ≤ int32Max) (hg : T > 0 → t = ENC_AES128_GCM) (junk : UInt8)
    (ebuf : Bytes) (heb : ebuf.length = 23)
    (crc : Int → UInt8 → Int) (hcrc : ∀ x b, int32Min ≤ crc x b ∧ crc x b ≤ int32Max)
    (ver hver rver : Int) (hver1 : 0 ≤ ver ∧ ver ≤ int32Max) (hv : hver ≥ 13 ↔ ver ≥ 13)
    (hacc : receiverOnSettings ver rver = (ver, .accept))
    (st : Settings) (hst : st.WF) (hid : st.transferId.length ≤ 200) (hch : st.sendFileChunks = false)
    (hfoot : ver ≥ 12 ∨ st.enableChecksum = false)
    (items : List SItem) (hit : ∀ i ∈ items, i.WF) (hsz : sizeCount items ≤ 200)
    (status : UInt8) (n total : Int) (hn : NN n) (htot : NN total)
    (buf hbuf rbuf : Bytes) (hb : 8192 ≤ buf.length) (hhb : (hbuf.length : Int) = kMaxHeader)
    (hrb : 8192 ≤ rbuf.length) (footer0 : Bool) (fuel : Nat) (hfu : items.length + 1 < fuel) :
    ∃ stream, sendStream ver hver crc st hbuf status n total items buf = .ok stream ∧
      ∀ writes : List Bytes, (∀ b ∈ writes, b ≠ []) → writes.flatten = stream → ¬TagAt T stream.length →
      ∃ hello w, encHello t iv T ebuf = .ok hello ∧ encWrites C ivs T I writes (.fresh iv) = .ok w ∧
        ∀ frag : Nat → Nat, ∃ s',
          sReceive (encSock C t junk (fun k => some (frag k)) I) crc st.transferId fuel (.start rbuf rver footer0)
            (.fresh (hello ++ w.out)) =
          .ok (.settings (st.carried ver) :: items.flatMap (SItem.obs ver st.enableChecksum),
            .done status n (if ver ≥ 16 then some total else none), s') := by
  obtain ⟨stream, e, h0⟩ := C34_delivery_partial (fun _ => 0) crc hcrc ver hver rver hver1 hv hacc st hst hid hch hfoot
    items hit hsz status n total hn htot buf hbuf rbuf hb hhb hrb footer0 fuel hfu
  refine ⟨stream, e, ?_⟩
  intro writes hw hfl hend
  obtain ⟨hello, w, e1, e2, h⟩ := C97_transparent_partial C ivs hC t ht iv hiv T I hT hT' hg junk ebuf heb writes hw
    (by rw [hfl]; exact hend)
  refine ⟨hello, w, e1, e2, ?_⟩
  intro frag
  obtain ⟨cut, hcut⟩ := h frag
  obtain ⟨stream', e', h'⟩ := C34_delivery_partial cut crc hcrc ver hver rver hver1 hv hacc st hst hid hch hfoot
    items hit hsz status n total hn htot buf hbuf rbuf hb hhb hrb footer0 fuel hfu
  rw [e] at e'
  cases e'
  exact hcut crc st.transferId rbuf rver footer0 fuel _ _ (by rw [hfl]; exact h')

/-- A small transfer: a size, a file of two bytes, DONE. -/
def smallSettings : Settings := { readTimeoutMillis := 5000, writeTimeoutMillis := 5000, transferId := [120], enableChecksum := true }
def smallItems : List SItem := [.size 2, .block 0 { fileName := [97], seqId := 1, dataSize := 2, fileSize := 2 } [7, 8]]

/-- What a receiver thread does on an encrypted connection that carries the small
transfer in one write, with a tag every `T` bytes. -/
def smallRun (T : Int) : Option (Nat × List RObs × ROut × ErrCode) :=
  match sendStream 30 30 xorCrc smallSettings (List.replicate 4150 0) 0 1 2 smallItems (List.replicate 8192 0) with
  | .error _ => none
  | .ok stream =>
    match encHello ENC_AES128_GCM (List.replicate 16 9) T (List.replicate 23 0),
        encWrites toyCipher toyIvs T 0 [stream] (.fresh (List.replicate 16 9)) with
    | .ok h, .ok w =>
      match sReceive (encSock toyCipher ENC_AES128_GCM 0 (fun _ => some 99) 0) xorCrc [120] 9 (.start (List.replicate 8192 255) 30 false)
          (.fresh (h ++ w.out)) with
      | .ok (obs, o, s) => some (stream.length, obs, o, s.r.err)
      | .error _ => none
    | _, _ => none

/-- What should happen. -/
def smallObs : List RObs :=
  [.settings smallSettings, .size 2, .block { fileName := [97], seqId := 1, dataSize := 2, fileSize := 2 } [7, 8] true,
   .verified { fileName := [97], seqId := 1, dataSize := 2, fileSize := 2 }]

/-- Case: a tag every 100 bytes of the 282. -/
example : smallRun 100 = some (282, smallObs, .done 0 1 (some 2), eOK) := by decide +kernel

/-- The hypotheses of `C97_delivery_partial` are met by the small transfer with tags
every 100 bytes. -/
example : ∃ stream,
    sendStream 30 30 xorCrc smallSettings (List.replicate 4150 0) 0 1 2 smallItems (List.replicate 8192 0) = .ok stream ∧
    ∀ writes : List Bytes, (∀ b ∈ writes, b ≠ []) → writes.flatten = stream → ¬TagAt 100 stream.length →
      ∃ hello w, encHello ENC_AES128_GCM (List.replicate 16 9) 100 (List.replicate 23 0) = .ok hello ∧
        encWrites toyCipher toyIvs 100 0 writes (.fresh (List.replicate 16 9)) = .ok w ∧
        ∀ frag : Nat → Nat, ∃ s',
          sReceive (encSock toyCipher ENC_AES128_GCM 0 (fun k => some (frag k)) 0) xorCrc [120] 9
            (.start (List.replicate 8192 255) 30 false) (.fresh (hello ++ w.out)) = .ok (smallObs, .done 0 1 (some 2), s') := by
  refine C97_delivery_partial toyCipher toyIvs toy_ok ENC_AES128_GCM (.inr rfl) (List.replicate 16 9) (by simp) 100 0 (by decide)
    (by decide) (fun _ => rfl) 0 (List.replicate 23 0) (by simp) xorCrc ?_ 30 30 30 ⟨by decide, by decide⟩ Iff.rfl (by decide)
    smallSettings (by unfold Settings.WF; decide) (by decide) rfl (.inl (by decide)) smallItems ?_ (by decide) 0 1 2 (by decide) (by decide)
    (List.replicate 8192 0) (List.replicate 4150 0) (List.replicate 8192 255)
    (by rw [List.length_replicate]; exact Nat.le_refl _) (by rw [List.length_replicate]; rfl)
    (by rw [List.length_replicate]; exact Nat.le_refl _) false 9 (by decide)
  · intro x b
    unfold xorCrc int32Min int32Max
    omega
  · intro i hi
    simp only [smallItems, List.mem_cons, List.not_mem_nil, or_false] at hi
    rcases hi with rfl | rfl
    · exact ⟨by decide, by decide⟩
    · refine ⟨?_, by decide, rfl, by decide⟩
      unfold BlockDetails.WF; decide

/-- **C97** fails when the stream of a connection, up to and with its DONE, is as long
as the tag interval: the tag is only sent in front of further data, which the sender
sends after the receiver's answer, while the receiver waits for the tag before it looks
at the data it has.  All that arrived on the connection, settings, files and DONE, is
thrown away, the read error is an encryption error, and the thread waits for another
connection. -/
theorem C97_violated_boundary : smallRun 282 = some (282, [], .reconnect eSOCKET_READ_ERROR, eENCRYPTION_ERROR) := by
  decide +kernel

end Wdt
