import Verif.Lemmas.Setup
import Verif.Model.Negotiation
import Verif.Props.UriRequest
/-
C84: what `init` accepts and refuses.  C85: the url of a receiver leads a sender to it.
-/
namespace Wdt

/-! ## C84, sender -/

/-- **C84**, sender: for every request with a version from 10 on, `init` returns; it accepts exactly
the requests without earlier error that name a directory, ports and a host; the version is the
smaller of the two; nothing else in the request is touched; a request with an error keeps it, others
are refused as invalid.  Missing from the full statement: other versions, see below. -/
theorem C84_sender_partial (own : Int) (r : TransferReq) (ho : 10 ≤ own)
    (hv : 10 ≤ r.protocolVersion) (hv2 : r.protocolVersion ≤ 2147483647) :
    ∃ r', senderInit own r = .ok r' ∧
      (r'.errorCode = eOK ↔ r.errorCode = eOK ∧ r.directory ≠ [] ∧ r.ports ≠ [] ∧ r.hostName ≠ []) ∧
      (r'.errorCode = eOK ∨ (r.errorCode = eOK ∧ r'.errorCode = eINVALID_REQUEST) ∨ (r.errorCode ≠ eOK ∧ r'.errorCode = r.errorCode)) ∧
      r'.protocolVersion = min own r.protocolVersion ∧
      { r' with protocolVersion := r.protocolVersion, errorCode := r.errorCode } = r := by
  unfold senderInit negotiateReq
  rw [toI32_id (by omega) hv2]
  simp only []
  rw [if_neg (by omega)]
  refine ⟨_, rfl, ?_⟩
  have hn : negotiateProtocol r.protocolVersion own = min own r.protocolVersion := by
    unfold negotiateProtocol; rw [if_neg (by omega)]
  have hpos : ¬ min own r.protocolVersion < 0 := by omega
  obtain ⟨id, enc, ver, ports, host, dst, ns, dir, dr, tls, iv, ec⟩ := r
  simp only [] at hn hpos ⊢
  rw [hn]
  unfold validateSender validateReq
  simp only []
  by_cases he : ec = eOK
  · subst he
    have hne : ¬ (eINVALID_REQUEST = eOK) := by decide
    by_cases hd : dir = []
    · simp [hd, hne]
    · by_cases hp : ports = []
      · simp [hp, hne]
      · by_cases hh : host = []
        · simp [hd, hp, hpos, hh, hne]
        · simp [hd, hp, hpos, hh]
  · simp [he]

/-- A request that is accepted, one that is refused. -/
example : (match senderInit 31 { protocolVersion := 40, ports := [1], hostName := lit "h", directory := lit "/d" } with
    | .ok r => decide (r.errorCode = eOK ∧ r.protocolVersion = 31) | .error _ => false) = true ∧
    (match senderInit 31 { protocolVersion := 30, ports := [], hostName := lit "h", directory := lit "/d" } with
    | .ok r => decide (r.errorCode = eINVALID_REQUEST ∧ r.protocolVersion = 30) | .error _ => false) = true := by decide +kernel

/-- **C84** is violated: `init` of a sender ends the program when the version is not positive, even
if the request is otherwise refused anyway (negotiation comes before validation). -/
theorem C84_sender_crash (own : Int) (r : TransferReq) (h1 : -2147483648 ≤ r.protocolVersion) (h2 : r.protocolVersion ≤ 2147483647) :
    senderInit own r = .error .check ↔ r.protocolVersion ≤ 0 := by
  unfold senderInit negotiateReq
  rw [toI32_id h1 h2]
  simp only []
  by_cases h : r.protocolVersion ≤ 0
  · rw [if_pos h]; simp [h]
  · rw [if_neg h]; simp [h]

/-- Such requests come from urls that are accepted: `recpv=0`, or a number whose low 32 bits are 0. -/
theorem C84_url_violated :
    (∃ r, parseReq 31 (lit "wdt://h:22356?num_ports=1&recpv=0") = .ok r ∧ r.errorCode = eOK ∧
      senderInit 31 { r with directory := lit "/d" } = .error .check) ∧
    (∃ r, parseReq 31 (lit "wdt://h:22356?num_ports=1&recpv=4294967296") = .ok r ∧ r.errorCode = eOK ∧
      senderInit 31 { r with directory := lit "/d" } = .error .check) :=
  ⟨⟨{ protocolVersion := 0, ports := [22356], hostName := lit "h" }, by decide +kernel, rfl, by decide +kernel⟩,
   ⟨{ protocolVersion := 4294967296, ports := [22356], hostName := lit "h" }, by decide +kernel, rfl, by decide +kernel⟩⟩

/-- **C84** is violated: a version that nobody supports any more is accepted, as version 0, and every
receiver that has a version refuses the sender. -/
theorem C84_old_violated (own v : Int) (h1 : 1 ≤ v) (h2 : v < 10) :
    ∃ r r', r.protocolVersion = v ∧ senderInit own r = .ok r' ∧ r'.errorCode = eOK ∧ r'.protocolVersion = 0 ∧
      ∀ recv, recv ≠ 0 → (receiverOnSettings r'.protocolVersion recv).2 = .incompatible := by
  refine ⟨{ protocolVersion := v, ports := [1], hostName := lit "h", directory := lit "/d" },
    { protocolVersion := 0, ports := [1], hostName := lit "h", directory := lit "/d" }, rfl, ?_, rfl, rfl, ?_⟩
  · unfold senderInit negotiateReq
    rw [toI32_id (by simp only []; omega) (by simp only []; omega)]
    simp only []
    rw [if_neg (by omega)]
    have : negotiateProtocol v own = 0 := by unfold negotiateProtocol; rw [if_pos h2]
    rw [this]
    decide +kernel
  · intro recv hr
    unfold receiverOnSettings
    rw [if_pos (by simpa using hr.symm), if_pos (by unfold negotiateProtocol; rw [if_pos (by decide)])]

/-! ## C84, receiver -/

/-- Encryption is wanted and possible with the version that is used. -/
def WantsEnc (own : Int) (o : RecvOpts) (r : TransferReq) : Prop := o.encType ≠ 0 ∧ 23 ≤ own ∧ 23 ≤ r.protocolVersion

/-- Result of the first steps of `init`. -/
theorem recvPrepare_spec (own : Int) (o : RecvOpts) (e : RecvEnv) (r : TransferReq) (ho : 10 ≤ own)
    (hv : 10 ≤ r.protocolVersion) (hv2 : r.protocolVersion ≤ 2147483647)
    (hopt : ¬ (o.resume = true ∧ (o.skipWrites = true ∨ (o.dirTree = true ∧ o.prealloc = true)))) :
    ∃ r' go, recvPrepare own o e r = .ok (r', go) ∧
      (go = false → r'.errorCode ≠ eOK ∧ (r.errorCode ≠ eOK → r' = r) ∧
        (r.errorCode = eOK → (r.directory = [] ∨ r.ports = []) → r'.errorCode = eINVALID_REQUEST) ∧
        (r.errorCode = eOK → r.directory ≠ [] → r.ports ≠ [] →
          (o.resume = true ∧ e.logCode ≠ eOK ∧ r'.errorCode = e.logCode) ∨ (e.key = none ∧ r'.errorCode = eENCRYPTION_ERROR))) ∧
      (go = true ↔ r.errorCode = eOK ∧ r.directory ≠ [] ∧ r.ports ≠ [] ∧ (o.resume = true → e.logCode = eOK) ∧
        (WantsEnc own o r → r.enc.type = 0 → e.key ≠ none)) ∧
      (go = true → r'.protocolVersion = min own r.protocolVersion ∧ r'.ports = r.ports ∧ r'.hostName = r.hostName ∧
        r'.directory = r.directory ∧ r'.tls = r.tls ∧ r'.destIdentifier = r.destIdentifier ∧ r'.wdtNamespace = r.wdtNamespace ∧
        r'.transferId = (if r.transferId = [] then e.newId else r.transferId) ∧ r'.dr = o.resume ∧ r'.ivChange = o.ivMb * 1048576 ∧
        (¬ WantsEnc own o r → r'.enc = {}) ∧ (WantsEnc own o r → r.enc.type ≠ 0 → r'.enc = r.enc) ∧
        (WantsEnc own o r → r.enc.type = 0 → ∃ k, e.key = some k ∧ r'.enc = ⟨o.encType, k⟩)) := by
  obtain ⟨id, enc, ver, ports, host, dst, ns, dir, dr, tls, iv, ec⟩ := r
  simp only [] at hv hv2
  have hneg : ∀ r : TransferReq, r.protocolVersion = ver →
      negotiateReq own r = .ok { r with protocolVersion := min own ver } := by
    intro r hr
    unfold negotiateReq
    rw [toI32_id (by omega) (by omega)]
    simp only [hr]
    rw [if_neg (by omega)]
    unfold negotiateProtocol
    rw [if_neg (by omega)]
  have hinv : ¬ (eINVALID_REQUEST = eOK) := by decide
  have henc : ¬ (eENCRYPTION_ERROR = eOK) := by decide
  have hver : ¬ ver < 0 := by omega
  have hw : (23 ≤ min own ver) ↔ (23 ≤ own ∧ 23 ≤ ver) := by omega
  unfold recvPrepare validateReq WantsEnc
  by_cases he : ec = eOK
  · subst he
    by_cases hd : dir = []
    · simp [hd, hinv]
    · by_cases hp : ports = []
      · simp [hp, hinv]
      · simp only [ne_eq, not_true_eq_false, if_false, hd, hver, hp, or_self]
        rw [hneg _ (by split <;> rfl)]
        simp only []
        rw [if_neg hopt]
        by_cases hl : o.resume = true ∧ e.logCode ≠ eOK
        · rw [if_pos hl]
          refine ⟨_, _, rfl, fun _ => ⟨hl.2, by simp, by simp, fun _ _ _ => .inl ⟨hl.1, hl.2, rfl⟩⟩, ?_, by simp⟩
          simp only [hl.1, true_implies, Bool.false_eq_true, false_iff]
          exact fun h => hl.2 h.2.2.2.1
        · rw [if_neg hl]
          have hl' : o.resume = true → e.logCode = eOK := fun h => Decidable.byContradiction fun h2 => hl ⟨h, h2⟩
          by_cases hen : o.encType ≠ 0 ∧ 23 ≤ own ∧ 23 ≤ ver
          · rw [if_pos ⟨hen.1, hw.2 hen.2⟩]
            by_cases ht : enc.type = 0
            · rw [if_neg (by split <;> simp [ht])]
              cases hk : e.key with
              | none =>
                refine ⟨_, _, rfl, fun _ => ⟨henc, by simp, by simp, fun _ _ _ => .inr ⟨rfl, rfl⟩⟩, ?_, by simp⟩
                simp only [Bool.false_eq_true, false_iff]
                exact fun h => h.2.2.2.2 hen ht trivial
              | some k =>
                refine ⟨_, _, rfl, by simp, ?_, fun _ => ?_⟩
                · simp only [true_iff]
                  exact ⟨trivial, not_false, not_false, hl', by simp⟩
                · by_cases hi : id = []
                  · simp [hi, hen, ht]
                  · simp [hi, hen, ht]
            · rw [if_pos (by split <;> exact ht)]
              refine ⟨_, _, rfl, by simp, ?_, fun _ => ?_⟩
              · simp only [true_iff]
                exact ⟨trivial, not_false, not_false, hl', fun _ h => absurd h ht⟩
              · by_cases hi : id = []
                · simp [hi, hen, ht]
                · simp [hi, hen, ht]
          · rw [if_neg (by rintro ⟨a, b⟩; exact hen ⟨a, hw.1 b⟩)]
            refine ⟨_, _, rfl, by simp, ?_, fun _ => ?_⟩
            · simp only [true_iff]
              exact ⟨trivial, not_false, not_false, hl', fun h => absurd h hen⟩
            · have hen' : o.encType ≠ 0 → 23 ≤ own → ¬ 23 ≤ ver := fun a b c => hen ⟨a, b, c⟩
              by_cases hi : id = []
              · simp only [hi, if_true]; simp only [true_and]
                exact ⟨fun _ => trivial, fun h => absurd h hen, fun h => absurd h hen⟩
              · simp only [hi, if_false]; simp only [true_and]
                exact ⟨fun _ => trivial, fun h => absurd h hen, fun h => absurd h hen⟩
  · simp [he]

/-- What is promised of a receiver that has been set up, or of the part of it that has: every thread
that listens does so on the port that the request names for it, where the sender will look; version,
transfer id, host, key and options are those of the documentation. -/
structure RecvSetUp (own : Int) (o : RecvOpts) (e : RecvEnv) (r r' : TransferReq) (socks : List LSock) : Prop where
  num : socks.length = r.ports.length
  ports : r'.ports = socks.map fun s => (s.port : Int)
  listens : ∀ (i : Nat) (s : LSock) (p : Int), socks[i]? = some s → r.ports[i]? = some p → s.fds ≠ [] →
    Listens (e.net i) s ∧ PortFrom (e.net i) o.staticPorts p.toNat s.port
  fails : ∀ (i : Nat) (s : LSock) (p : Int), socks[i]? = some s → r.ports[i]? = some p → s.fds = [] →
    s.openFds = [] ∧ s.port = p.toNat
  version : r'.protocolVersion = min own r.protocolVersion
  id : r'.transferId = if r.transferId = [] then e.newId else r.transferId
  host : r.hostName ≠ [] → r'.hostName = r.hostName
  host2 : r.hostName = [] → e.host = some r'.hostName
  dir : r'.directory = r.directory
  tls : r'.tls = r.tls
  dr : r'.dr = o.resume
  iv : r'.ivChange = o.ivMb * 1048576
  plain : ¬ WantsEnc own o r → r'.enc = {}
  given : WantsEnc own o r → r.enc.type ≠ 0 → r'.enc = r.enc
  fresh : WantsEnc own o r → r.enc.type = 0 → ∃ k, e.key = some k ∧ r'.enc = ⟨o.encType, k⟩

/-- **C84**, receiver: for every request with a version from 10 on, all options that fit together
and whatever the machine does, `init` returns; it says OK exactly if the request names a directory
and ports and has no error, the log can be opened if it is needed, there is a key if one is needed,
there is a host name, and every thread listens; FEWER_PORTS exactly if some threads listen and some
do not.  In both cases the receiver is set up as promised.  A request that already has an error is
returned as it was; one without directory or ports is invalid. -/
theorem C84_receiver_partial (own : Int) (o : RecvOpts) (e : RecvEnv) (r : TransferReq) (ho : 10 ≤ own)
    (hv : 10 ≤ r.protocolVersion) (hv2 : r.protocolVersion ≤ 2147483647)
    (hopt : ¬ (o.resume = true ∧ (o.skipWrites = true ∨ (o.dirTree = true ∧ o.prealloc = true))))
    (hlog : e.logCode ≠ eFEWER_PORTS) (hre : r.errorCode ≠ eFEWER_PORTS) :
    ∃ r' socks, receiverInit own o e r = .ok (r', socks) ∧
      (r'.errorCode = eOK ↔ r.errorCode = eOK ∧ r.directory ≠ [] ∧ r.ports ≠ [] ∧ (o.resume = true → e.logCode = eOK) ∧
        (WantsEnc own o r → r.enc.type = 0 → e.key ≠ none) ∧ (r.hostName = [] → e.host ≠ none) ∧
        socks.length = r.ports.length ∧ ∀ s ∈ socks, s.fds ≠ []) ∧
      (r'.errorCode = eFEWER_PORTS → (∃ s ∈ socks, s.fds ≠ []) ∧ ∃ s ∈ socks, s.fds = []) ∧
      (r'.errorCode = eOK ∨ r'.errorCode = eFEWER_PORTS → RecvSetUp own o e r r' socks) ∧
      (r.errorCode ≠ eOK → r' = r ∧ socks = []) ∧
      (r.errorCode = eOK → (r.directory = [] ∨ r.ports = []) → r'.errorCode = eINVALID_REQUEST ∧ socks = []) ∧
      (r.errorCode = eOK → r.directory ≠ [] → r.ports ≠ [] → r'.errorCode = eOK ∨ r'.errorCode = eFEWER_PORTS ∨
        (r'.errorCode = eERROR ∧ ((∀ s ∈ socks, s.fds = []) ∨ e.host = none)) ∨
        (o.resume = true ∧ e.logCode ≠ eOK ∧ r'.errorCode = e.logCode ∧ socks = []) ∨
        (e.key = none ∧ r'.errorCode = eENCRYPTION_ERROR ∧ socks = [])) := by
  obtain ⟨r1, go, hpre, h0, hgo, h1⟩ := recvPrepare_spec own o e r ho hv hv2 hopt
  unfold receiverInit
  rw [hpre]
  cases go with
  | false =>
    obtain ⟨hne, hsame, hinv, hwhy⟩ := h0 rfl
    have hgo' : ¬ (r.errorCode = eOK ∧ r.directory ≠ [] ∧ r.ports ≠ [] ∧ (o.resume = true → e.logCode = eOK) ∧
        (WantsEnc own o r → r.enc.type = 0 → e.key ≠ none)) := fun h => absurd (hgo.2 h) (by decide)
    have hnf : r1.errorCode ≠ eFEWER_PORTS := by
      by_cases he : r.errorCode = eOK
      · by_cases hdp : r.directory = [] ∨ r.ports = []
        · rw [hinv he hdp]; decide
        · rcases hwhy he (fun h => hdp (.inl h)) (fun h => hdp (.inr h)) with ⟨-, -, h⟩ | ⟨-, h⟩
          · rw [h]; exact hlog
          · rw [h]; decide
      · rw [hsame he]; exact hre
    refine ⟨r1, [], rfl, ⟨fun h => absurd h hne, fun h => absurd ⟨h.1, h.2.1, h.2.2.1, h.2.2.2.1, h.2.2.2.2.1⟩ hgo'⟩,
      fun h => absurd h hnf, fun h => ?_, fun h => ⟨hsame h, rfl⟩, fun h h2 => ⟨hinv h h2, rfl⟩, fun a b c => ?_⟩
    · rcases h with h | h
      · exact absurd h hne
      · exact absurd h hnf
    · rcases hwhy a b c with ⟨x, y, z⟩ | ⟨x, y⟩
      · exact .inr (.inr (.inr (.inl ⟨x, y, z, rfl⟩)))
      · exact .inr (.inr (.inr (.inr ⟨x, y, rfl⟩)))
  | true =>
    obtain ⟨g1, g2, g3, g4, g5⟩ := hgo.1 rfl
    obtain ⟨p1, p2, p3, p4, p5, p6, p7, p8, p9, p10, p11, p12, p13⟩ := h1 rfl
    simp only []
    rw [p2, p3]
    generalize hth : initThreads o e 0 r.ports = ths
    have hlen : ths.length = r.ports.length := by rw [← hth]; exact initThreads_length ..
    have hget : ∀ i t p, ths[i]? = some t → r.ports[i]? = some p → t = threadInit (e.net i) o.staticPorts o.maxRetries p := by
      intro i t p h h'
      rw [← hth, initThreads_get, h'] at h
      simp only [Option.map_some, Option.some.injEq, Nat.zero_add] at h
      exact h.symm
    have hok : ∀ t ∈ ths, t.1 = eOK ↔ t.2.fds ≠ [] := by
      intro t ht
      obtain ⟨i, hi⟩ := List.mem_iff_getElem?.mp ht
      have hlt : i < r.ports.length := by rw [← hlen]; exact (List.getElem?_eq_some_iff.mp hi).1
      have := hget i t _ hi (List.getElem?_eq_getElem hlt)
      rw [this]
      have sp := threadInit_spec (e.net i) o.staticPorts o.maxRetries r.ports[i]
      exact ⟨fun h => (sp.1 h).1.any, fun h => Decidable.byContradiction fun h2 => h (sp.2 h2).2.1⟩
    have hsetup : ∀ r' : TransferReq, r'.ports = (ths.map fun t => (t.2.port : Int)) → r'.protocolVersion = r1.protocolVersion →
        r'.transferId = r1.transferId → (r.hostName ≠ [] → r'.hostName = r.hostName) →
        (r.hostName = [] → e.host = some r'.hostName) → r'.directory = r1.directory → r'.tls = r1.tls → r'.dr = r1.dr →
        r'.ivChange = r1.ivChange → r'.enc = r1.enc → RecvSetUp own o e r r' (ths.map (·.2)) := by
      intro r' a1 a2 a3 a4 a5 a6 a7 a8 a9 a10
      refine ⟨by rw [List.length_map, hlen], by rw [a1, List.map_map]; rfl, ?_, ?_, a2.trans p1, a3.trans p8, a4, a5, a6.trans p4,
        a7.trans p5, a8.trans p9, a9.trans p10, fun h => a10.trans (p11 h), fun h h2 => a10.trans (p12 h h2), fun h h2 => ?_⟩
      · intro i s p hs hp hne
        rw [List.getElem?_map] at hs
        obtain ⟨t, ht, rfl⟩ := Option.map_eq_some_iff.mp hs
        have := hget i t p ht hp
        have h1 := (hok t (List.mem_of_getElem? ht)).2 hne
        rw [this] at h1 ⊢
        exact (threadInit_spec _ _ _ _).1 h1
      · intro i s p hs hp he
        rw [List.getElem?_map] at hs
        obtain ⟨t, ht, rfl⟩ := Option.map_eq_some_iff.mp hs
        have := hget i t p ht hp
        have h1 : t.1 ≠ eOK := fun h => (hok t (List.mem_of_getElem? ht)).1 h he
        rw [this] at h1 ⊢
        exact ⟨((threadInit_spec _ _ _ _).2 h1).2.2.1, ((threadInit_spec _ _ _ _).2 h1).2.2.2⟩
      · obtain ⟨k, hk, hk2⟩ := p13 h h2
        exact ⟨k, hk, a10.trans hk2⟩
    have hbad : ¬ (eERROR = eOK) := by decide
    have hbad2 : ¬ (eERROR = eFEWER_PORTS) := by decide
    have hall : portsCode ths = eOK ↔ ∀ s ∈ ths.map (·.2), s.fds ≠ [] := by
      rw [portsCode_ok]
      simp only [List.mem_map, forall_exists_index, and_imp, forall_apply_eq_imp_iff₂]
      exact ⟨fun h t ht => (hok t ht).1 (h t ht), fun h t ht => (hok t ht).2 (h t ht)⟩
    have hfew : portsCode ths = eFEWER_PORTS → (∃ s ∈ ths.map (·.2), s.fds ≠ []) ∧ ∃ s ∈ ths.map (·.2), s.fds = [] := by
      intro hf
      have hnall : ¬ ∀ t ∈ ths, t.1 = eOK := by
        rw [← portsCode_ok, hf]; decide
      rcases portsCode_cases ths with h | ⟨-, t, ht, h⟩ | ⟨h, -⟩
      · rw [hf] at h; exact absurd h (by decide)
      · refine ⟨⟨t.2, List.mem_map_of_mem ht, (hok t ht).1 h⟩, ?_⟩
        simp only [not_forall] at hnall
        obtain ⟨u, hu, hu2⟩ := hnall
        exact ⟨u.2, List.mem_map_of_mem hu, Decidable.byContradiction fun h => hu2 ((hok u hu).2 h)⟩
      · rw [hf] at h; exact absurd h (by decide)
    have hwhy : portsCode ths = eOK ∨ portsCode ths = eFEWER_PORTS ∨
        (portsCode ths = eERROR ∧ ((∀ s ∈ ths.map (·.2), s.fds = []) ∨ e.host = none)) ∨
        (o.resume = true ∧ e.logCode ≠ eOK ∧ portsCode ths = e.logCode ∧ ths.map (·.2) = []) ∨
        (e.key = none ∧ portsCode ths = eENCRYPTION_ERROR ∧ ths.map (·.2) = []) := by
      rcases portsCode_cases ths with h | ⟨h, -⟩ | ⟨h, hn⟩
      · exact .inl h
      · exact .inr (.inl h)
      · refine .inr (.inr (.inl ⟨h, .inl ?_⟩))
        intro s hs
        obtain ⟨t, ht, rfl⟩ := List.mem_map.mp hs
        exact Decidable.byContradiction fun h2 => hn t ht ((hok t ht).2 h2)
    have hlens : (ths.map (·.2)).length = r.ports.length := by rw [List.length_map, hlen]
    by_cases hh : r.hostName ≠ []
    · rw [if_pos hh]
      refine ⟨_, _, rfl, ?_, hfew, fun _ => hsetup _ rfl rfl rfl (fun _ => rfl) (fun h => absurd h hh) rfl rfl rfl rfl rfl,
        fun h => absurd g1 h, fun _ h => ?_, fun _ _ _ => hwhy⟩
      · simp only []
        rw [hall]
        exact ⟨fun h => ⟨g1, g2, g3, g4, g5, fun h => absurd h hh, hlens, h⟩, fun h => h.2.2.2.2.2.2.2⟩
      · rcases h with h | h
        · exact absurd h g2
        · exact absurd h g3
    · rw [if_neg hh]
      cases hhost : e.host with
      | some hn =>
        refine ⟨_, _, rfl, ?_, hfew, fun _ => hsetup _ rfl rfl rfl (fun h => absurd h hh) (fun _ => hhost) rfl rfl rfl rfl rfl,
          fun h => absurd g1 h, fun _ h => ?_, fun _ _ _ => by rw [hhost] at hwhy; exact hwhy⟩
        · simp only []
          rw [hall]
          exact ⟨fun h => ⟨g1, g2, g3, g4, g5, fun _ => by simp, hlens, h⟩, fun h => h.2.2.2.2.2.2.2⟩
        · rcases h with h | h
          · exact absurd h g2
          · exact absurd h g3
      | none =>
        refine ⟨_, _, rfl, ⟨fun h => absurd h hbad, fun h => absurd rfl (h.2.2.2.2.2.1 (by simpa using hh))⟩,
          fun h => absurd h hbad2, fun h => ?_, fun h => absurd g1 h, fun _ h => ?_,
          fun _ _ _ => .inr (.inr (.inl ⟨rfl, .inr rfl⟩))⟩
        · rcases h with h | h
          · exact absurd h hbad
          · exact absurd h hbad2
        · rcases h with h | h
          · exact absurd h g2
          · exact absurd h g3

/-- The port `p` can be listened on: some address family can be bound, to the port itself or, if any
port will do, to whatever the system picks. -/
def CanListen (h : LHost) (static : Bool) (p : Nat) : Prop :=
  if static = true ∧ p ≠ 0 then ∃ l fam, h.lookup p = some l ∧ fam ∈ l ∧ fam ≠ 0 ∧ ∀ k, h.attempt k fam p = true
  else (∃ l fam, h.lookup 0 = some l ∧ fam ∈ l ∧ ∀ k, h.attempt k fam 0 = true) ∧ (∀ k, h.name k = true) ∧
    ∀ k, ∃ a l, h.lookup (h.pick k) = some (a :: l)

/-- **C84**: a thread whose port can be listened on listens. -/
theorem C84_listens (h : LHost) (static : Bool) (m p : Int) (hc : CanListen h static p.toNat) :
    (threadInit h static m p).1 = eOK ∧ (threadInit h static m p).2.fds ≠ [] := by
  have key : ∀ s : LSock, s.fds = [] → s.port = p.toNat → (listenSock h static s).1 = eOK := by
    intro s h1 hp
    unfold CanListen at hc
    unfold listenSock
    rw [if_neg (by simp [h1])]
    simp only []
    by_cases hs : static = true ∧ p.toNat ≠ 0
    · rw [if_pos hs] at hc
      obtain ⟨l, fam, a, b, c, d⟩ := hc
      rw [if_pos hs.1, hp, a]
      simp only []
      rw [if_neg hs.2, if_neg (bindRest_finds h _ l s fam b c d)]
    · rw [if_neg hs] at hc
      obtain ⟨⟨l, fam, a, b, c⟩, d, e⟩ := hc
      have h0 : (if static = true then s.port else 0) = 0 := by
        by_cases hst : static = true
        · rw [if_pos hst, hp]; exact Decidable.byContradiction fun h => hs ⟨hst, h⟩
        · rw [if_neg hst]
      rw [h0, a]
      simp only [if_true]
      rw [if_neg (bindFirst_finds h l s fam b h1 c d e)]
  have sp := threadInit_spec h static m p
  by_cases hk : (threadInit h static m p).1 = eOK
  · exact ⟨hk, (sp.1 hk).1.any⟩
  · exfalso
    have ht := listenTries_spec h static m.toNat { port := p.toNat } rfl rfl
    apply hk
    unfold threadInit
    generalize listenTries h static m.toNat { port := p.toNat } = s at ht ⊢
    simp only [] at ht ⊢
    by_cases hs : s.fds = []
    · rw [if_pos (key s hs (ht.2 hs).2)]
    · rw [listenSock_again _ _ _ hs, if_pos rfl]

/-- Two threads, two free ports. -/
def exRecvEnv : RecvEnv :=
  { newId := lit "17", key := some (List.replicate 16 7), host := some (lit "box")
    net := fun i => { lookup := fun _ => some [2, 10], attempt := fun _ _ _ => true, pick := fun _ => 40000 + i % 1000, name := fun _ => true } }

def exRecvReq : TransferReq := { protocolVersion := 31, ports := [0, 0], directory := lit "/d" }

example (i : Nat) : CanListen (exRecvEnv.net i) false 0 := by
  unfold CanListen
  rw [if_neg (by decide)]
  exact ⟨⟨[2, 10], 2, rfl, by decide, fun _ => rfl⟩, fun _ => rfl, fun _ => ⟨2, [10], rfl⟩⟩

example : (match receiverInit 31 {} exRecvEnv exRecvReq with
    | .ok (r, socks) => decide (r.errorCode = eOK ∧ r.ports = [40000, 40001] ∧ r.transferId = lit "17" ∧ r.hostName = lit "box" ∧
        r.enc = ⟨2, List.replicate 16 7⟩ ∧ socks.length = 2) | .error _ => false) = true := by decide +kernel

/-- **C84** is violated: version 0 ends the receiver program. -/
theorem C84_receiver_crash (own : Int) (o : RecvOpts) (e : RecvEnv) (r : TransferReq) (h : r.errorCode = eOK) (hd : r.directory ≠ [])
    (hp : r.ports ≠ []) (hv : r.protocolVersion = 0) : receiverInit own o e r = .error .check := by
  have : recvPrepare own o e r = .error .check := by
    have hval : validateReq r = r := by
      unfold validateReq
      rw [if_neg (by simpa using h), if_neg (by simp [hd, hp, hv])]
    unfold recvPrepare
    rw [hval]
    simp only []
    rw [if_neg (by simpa using h)]
    unfold negotiateReq
    rw [if_pos]
    have : ∀ x : TransferReq, x.protocolVersion = 0 → toI32 x.protocolVersion ≤ 0 := by
      intro x hx; rw [hx]; decide
    apply this
    split <;> exact hv
  unfold receiverInit
  rw [this]

/-- So do options that exclude each other: resuming without writing, and resuming by size with files
that are given their full size at once. -/
theorem C84_options_violated :
    receiverInit 31 { resume := true, skipWrites := true } exRecvEnv exRecvReq = .error .check ∧
    receiverInit 31 { resume := true, dirTree := true } exRecvEnv exRecvReq = .error .check := by decide +kernel

/-- **C84** is violated: a receiver that cannot make its destination directory says OK. -/
theorem C84_directory_violated : ∃ e : RecvEnv, e.mkdir = false ∧
    (match receiverInit 31 {} e exRecvReq with | .ok (r, _) => decide (r.errorCode = eOK) | .error _ => false) = true :=
  ⟨{ exRecvEnv with mkdir := false }, rfl, by decide +kernel⟩

/-- **C84** is violated: a receiver too accepts versions that nobody supports, as version 0. -/
theorem C84_receiver_old_violated :
    (match receiverInit 31 {} exRecvEnv { exRecvReq with protocolVersion := 9 } with
      | .ok (r, _) => decide (r.errorCode = eOK ∧ r.protocolVersion = 0 ∧ r.enc = {}) | .error _ => false) = true := by decide +kernel

/-! ## C85 -/

theorem negotiateReq_err {own : Int} {r : TransferReq} {f : Fault} (h : negotiateReq own r = .error f) : f = .check := by
  unfold negotiateReq at h
  simp only [] at h
  by_cases hp : toI32 r.protocolVersion ≤ 0
  · rw [if_pos hp] at h; cases h; rfl
  · rw [if_neg hp] at h; cases h

theorem min_handshake (a b : Int) (ha : 10 ≤ a) (hb : 10 ≤ b) : handshake 1 (min a b) b = .ok (.agreed (min a b) (min a b)) := by
  unfold handshake receiverOnSettings negotiateProtocol
  by_cases h : min a b = b
  · rw [if_neg (by simpa using h), h]
  · rw [if_pos h, if_neg (by omega), if_neg (by omega), if_neg (by omega)]
    have : min b (min a b) = min a b := by omega
    rw [this]

/-- What the machine and the caller have to respect: keys are not empty, ports are port numbers,
cipher and interval are those of the options. -/
structure RecvSane (o : RecvOpts) (e : RecvEnv) (r : TransferReq) : Prop where
  key : ∀ k, e.key = some k → k ≠ []
  given : r.enc.type ≠ 0 → EncOK r.enc
  cipher : o.encType = 0 ∨ o.encType = 1 ∨ o.encType = 2
  iv : -2147483648 ≤ o.ivMb ∧ o.ivMb ≤ 2147483647
  ports : ∀ p ∈ r.ports, 0 ≤ p ∧ p ≤ 65535
  picks : ∀ i k, 0 < (e.net i).pick k ∧ (e.net i).pick k ≤ 65535
  own : r.errorCode ≠ eFEWER_PORTS ∧ e.logCode ≠ eFEWER_PORTS

/-- **C85**: when `init` of a receiver says OK, its url can be made, the command line program prints
it, and a sender that is given the url (and a directory) accepts it, looks on exactly the ports on
which the threads of the receiver listen, uses the receiver's host name, transfer id, key, interval
and options, and its version is accepted by the receiver at once, so that both use the same.
Missing: a receiver some of whose threads cannot listen, see below. -/
theorem C85_url_partial (ownR ownS pv : Int) (o : RecvOpts) (e : RecvEnv) (r r' : TransferReq) (socks : List LSock) (dir : Bytes)
    (hR : 10 ≤ ownR) (hR2 : ownR ≤ 2147483647) (hS : 10 ≤ ownS) (hv : 10 ≤ r.protocolVersion) (hv2 : r.protocolVersion ≤ 2147483647)
    (hs : RecvSane o e r) (h : receiverInit ownR o e r = .ok (r', socks)) (hok : r'.errorCode = eOK) (hh : HostOK r'.hostName)
    (hd : dir ≠ []) :
    ∃ url r2 r3, genUrlWithSecret r' = .ok (some url) ∧ (∀ b, cmdReceiver b r' = .ok (.receives (some url))) ∧
      parseReq pv url = .ok r2 ∧ r2.errorCode = eOK ∧
      senderInit ownS { r2 with directory := dir } = .ok r3 ∧ r3.errorCode = eOK ∧
      r3.ports.length = socks.length ∧
      (∀ i s, socks[i]? = some s → r3.ports[i]? = some (s.port : Int) ∧ Listens (e.net i) s) ∧
      r3.hostName = r'.hostName ∧ r3.transferId = r'.transferId ∧ r3.enc = r'.enc ∧ r3.ivChange = r'.ivChange ∧
      r3.dr = r'.dr ∧ r3.tls = r'.tls ∧ r3.directory = dir ∧
      handshake 1 r3.protocolVersion r'.protocolVersion = .ok (.agreed r3.protocolVersion r3.protocolVersion) := by
  have hopt : ¬ (o.resume = true ∧ (o.skipWrites = true ∨ (o.dirTree = true ∧ o.prealloc = true))) := by
    intro hx
    unfold receiverInit at h
    have hb : ∃ r1, recvPrepare ownR o e r = .ok (r1, false) ∧ r1.errorCode ≠ eOK ∨ recvPrepare ownR o e r = .error .check := by
      unfold recvPrepare
      simp only []
      by_cases hc : (validateReq r).errorCode ≠ eOK
      · exact ⟨_, .inl ⟨by rw [if_pos hc], hc⟩⟩
      · refine ⟨r, .inr ?_⟩
        rw [if_neg hc]
        cases hn : negotiateReq ownR (if (validateReq r).transferId = [] then { validateReq r with transferId := e.newId } else validateReq r) with
        | error f =>
          rw [negotiateReq_err hn]
        | ok r1 =>
          simp only []
          rw [if_pos hx]
    obtain ⟨r1, ⟨h1, h2⟩ | h1⟩ := hb
    · rw [h1] at h
      cases h
      exact h2 hok
    · rw [h1] at h; cases h
  obtain ⟨r1, s1, g0, g1, g2, g3, -⟩ := C84_receiver_partial ownR o e r hR hv hv2 hopt hs.own.2 hs.own.1
  rw [h] at g0
  cases g0
  have su := g3 (.inl hok)
  obtain ⟨q1, q2, q3, q4, q5, q6, q7, q8⟩ := g1.1 hok
  have hlisten : ∀ i s, socks[i]? = some s → Listens (e.net i) s ∧ 0 < s.port ∧ s.port ≤ 65535 := by
    intro i s hi
    have hlt : i < r.ports.length := by rw [← su.num]; exact (List.getElem?_eq_some_iff.mp hi).1
    obtain ⟨a, b⟩ := su.listens i s _ hi (List.getElem?_eq_getElem hlt) (q8 s (List.mem_of_getElem? hi))
    have hp := hs.ports _ (List.getElem_mem hlt)
    refine ⟨a, ?_⟩
    rcases b with ⟨-, b, c⟩ | ⟨k, b⟩
    · omega
    · have := hs.picks i k; omega
  have hreq : ReqOK r' := by
    refine ⟨hok, hh, ⟨?_, ?_⟩, ?_, ?_, ?_⟩
    · intro p hp
      rw [su.ports] at hp
      obtain ⟨s, hs', rfl⟩ := List.mem_map.mp hp
      obtain ⟨i, hi⟩ := List.mem_iff_getElem?.mp hs'
      have := hlisten i s hi
      omega
    · intro n hn
      rw [su.ports] at hn
      have hlen := congrArg List.length hn
      simp only [List.length_map, List.length_range] at hlen
      have hpos : 0 < socks.length := by rw [su.num]; exact List.length_pos_iff.mpr q3
      have h0 : socks[0]? = some socks[0] := List.getElem?_eq_getElem hpos
      have := hlisten 0 _ h0
      have h2 := congrArg (fun l : List Int => l[0]?) hn
      simp only [List.getElem?_map, h0, Option.map_some] at h2
      rw [List.getElem?_range (by omega)] at h2
      simp only [Option.map_some, Option.some.injEq] at h2
      omega
    · by_cases hw : WantsEnc ownR o r
      · by_cases ht : r.enc.type = 0
        · obtain ⟨k, hk, hk2⟩ := su.fresh hw ht
          rw [hk2]
          refine .inr ⟨?_, hs.key k hk⟩
          rcases hs.cipher with h | h
          · exact absurd h hw.1
          · exact h
        · rw [su.given hw ht]; exact hs.given ht
      · rw [su.plain hw]; exact .inl ⟨rfl, rfl⟩
    · rw [su.version]; omega
    · rw [su.iv]; have := hs.iv; omega
  obtain ⟨url, u1, u2⟩ := C37_request_roundtrip_partial pv r' hreq
  have hver : 10 ≤ r'.protocolVersion ∧ r'.protocolVersion ≤ 2147483647 := by rw [su.version]; omega
  obtain ⟨r3, v1, v2, -, v4, v5⟩ := C84_sender_partial ownS { { r' with directory := [] } with directory := dir } hS hver.1 hver.2
  have hne : r'.ports ≠ [] := by
    rw [su.ports]
    intro hx
    rw [List.map_eq_nil_iff] at hx
    have := su.num
    rw [hx] at this
    exact q3 (List.length_eq_zero_iff.mp this.symm)
  have hport : r3.ports = r'.ports := by simpa using congrArg TransferReq.ports v5
  refine ⟨url, { r' with directory := [] }, r3, u1, fun b => ?_, u2, hok, v1, v2.2 ⟨hok, hd, hne, hh.1⟩, ?_, ?_,
    by simpa using congrArg TransferReq.hostName v5, by simpa using congrArg TransferReq.transferId v5, by simpa using congrArg TransferReq.enc v5,
    by simpa using congrArg TransferReq.ivChange v5, by simpa using congrArg TransferReq.dr v5, by simpa using congrArg TransferReq.tls v5,
    by simpa using congrArg TransferReq.directory v5, ?_⟩
  · unfold cmdReceiver
    rw [if_neg (by rw [hok]; rintro ⟨h, -⟩; exact absurd h (by decide)), if_neg (by simp [hok]), u1]
  · rw [hport, su.ports, List.length_map]
  · intro i s hi
    refine ⟨?_, (hlisten i s hi).1⟩
    rw [hport, su.ports, List.getElem?_map, hi]
    rfl
  · rw [v4]
    exact min_handshake _ _ hS hver.1

/-- The conditions are met by the receiver above. -/
example : RecvSane {} exRecvEnv exRecvReq := by
  refine ⟨?_, ?_, by decide, by decide, by decide, ?_, by decide⟩
  · intro k hk; cases hk; decide
  · intro h; exact absurd rfl h
  · intro i k
    show 0 < 40000 + i % 1000 ∧ 40000 + i % 1000 ≤ 65535
    omega

/-- **C85** is violated: if some threads cannot listen the command line program goes on to receive,
but prints the name of the error instead of the url: no sender finds it. -/
theorem C85_fewer_violated (r : TransferReq) (h : r.errorCode = eFEWER_PORTS) : cmdReceiver false r = .ok (.receives none) := by
  unfold cmdReceiver genUrlWithSecret
  rw [if_neg (by simp), if_neg (by simp [h]), if_pos (by rw [h]; decide)]

/-- Like `exRecvEnv`, but on the port of the second thread somebody else listens. -/
def exBusyEnv : RecvEnv :=
  { exRecvEnv with net := fun i => { lookup := fun _ => some [2, 10], attempt := fun _ _ _ => i ≠ 1, pick := fun _ => 40000, name := fun _ => true } }

/-- This happens, and the request returned names the port on which somebody else listens. -/
theorem C85_busy_violated : ∃ r' socks,
    receiverInit 31 { staticPorts := true } exBusyEnv { exRecvReq with ports := [22356, 22357] } = .ok (r', socks) ∧
    r'.errorCode = eFEWER_PORTS ∧ r'.ports = [22356, 22357] ∧ (socks.map fun s => s.fds.length) = [2, 0] ∧
    cmdReceiver false r' = .ok (.receives none) := by
  have h : (match receiverInit 31 { staticPorts := true } exBusyEnv { exRecvReq with ports := [22356, 22357] } with
      | .ok (r', socks) => decide (r'.errorCode = eFEWER_PORTS ∧ r'.ports = [22356, 22357] ∧ (socks.map fun s => s.fds.length) = [2, 0])
      | .error _ => false) = true := by decide +kernel
  split at h
  · rename_i r' socks hr
    obtain ⟨a, b, c⟩ := of_decide_eq_true h
    exact ⟨r', socks, hr, a, b, c, C85_fewer_violated r' a⟩
  · cases h

/-- The second thread cannot get a port during `init` (42 attempts), but later. -/
def exLateEnv : RecvEnv :=
  { exRecvEnv with net := fun i =>
      { lookup := fun _ => some [2, 10], attempt := fun k _ _ => i ≠ 1 ∨ 42 ≤ k, pick := fun _ => 40000 + i % 1000, name := fun _ => true } }

/-- And a thread that gets a port only after `init` listens where no sender was told to look. -/
theorem C85_late_violated : ∃ r' s0 s1 s1', receiverInit 31 {} exLateEnv { exRecvReq with ports := [22356, 22357] } = .ok (r', [s0, s1]) ∧
    r'.ports = [40000, 22357] ∧ lateListen (exLateEnv.net 1) false 19 s1 = some s1' ∧ s1'.fds ≠ [] ∧ s1'.port = 40001 := by
  have h : (match receiverInit 31 {} exLateEnv { exRecvReq with ports := [22356, 22357] } with
      | .ok (r', [_, s1]) => decide (r'.ports = [40000, 22357]) && (match lateListen (exLateEnv.net 1) false 19 s1 with
        | some s1' => decide (s1'.fds ≠ [] ∧ s1'.port = 40001)
        | none => false)
      | _ => false) = true := by decide +kernel
  split at h
  · rename_i r' s0 s1 hr
    rw [Bool.and_eq_true] at h
    obtain ⟨a, h⟩ := h
    split at h
    · rename_i s1' hl
      obtain ⟨b, c⟩ := of_decide_eq_true h
      exact ⟨r', s0, s1, s1', hr, of_decide_eq_true a, hl, b, c⟩
    · cases h
  · cases h

end Wdt
