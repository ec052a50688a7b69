import Verif.Props.SocketWait
/-
C77: listening and accepting.  C78: connecting.
-/
namespace Wdt

/-! ### Listening -/

/-- Listening sockets are where they are said to be, and no others are open. -/
structure ListenInv (s : LSock) : Prop where
  port : ∀ f ∈ s.fds, f.port = s.port
  known : s.openFds = s.fds

theorem bindRest_spec (h : LHost) (skip : Nat) (l : List Nat) (s : LSock) (hi : ListenInv s) :
    ListenInv (bindRest h s.port skip l s) ∧ (bindRest h s.port skip l s).port = s.port ∧
      (∀ f ∈ s.fds, f ∈ (bindRest h s.port skip l s).fds) ∧
      (∀ f ∈ (bindRest h s.port skip l s).fds, f ∈ s.fds ∨ (f.fam ∈ l ∧ f.fam ≠ skip)) ∧
      (∀ fam ∈ l, fam ≠ skip → (∀ k, h.attempt k fam s.port = true) →
        ∃ f ∈ (bindRest h s.port skip l s).fds, f.fam = fam) ∧
      (l.Nodup → (s.fds.map LFd.fam).Nodup → (∀ f ∈ s.fds, f.fam ∉ l ∨ f.fam = skip) →
        ((bindRest h s.port skip l s).fds.map LFd.fam).Nodup) := by
  induction l generalizing s with
  | nil =>
    simp only [bindRest]
    exact ⟨hi, trivial, fun f hf => hf, fun f hf => .inl hf, by simp, fun _ hn _ => hn⟩
  | cons fam rest ih =>
    simp only [bindRest]
    by_cases h1 : fam = skip
    · rw [if_pos h1]
      obtain ⟨a, b, c, d, e, g⟩ := ih s hi
      refine ⟨a, b, c, fun f hf => ?_, ?_, ?_⟩
      · rcases d f hf with x | x
        · exact .inl x
        · exact .inr ⟨by simp [x.1], x.2⟩
      · intro x hx hne hall
        rcases List.mem_cons.mp hx with rfl | hx
        · exact absurd h1 hne
        · exact e x hx hne hall
      · intro hn hm hd
        refine g (List.nodup_cons.mp hn).2 hm fun f hf => ?_
        rcases hd f hf with x | x
        · exact .inl fun hx => x (by simp [hx])
        · exact .inr x
    · rw [if_neg h1]
      by_cases h2 : h.attempt s.tries fam s.port = true
      · rw [if_pos h2]
        have hi' : ListenInv (s.add ⟨s.tries, fam, s.port⟩) := by
          constructor
          · intro f hf
            rcases List.mem_append.mp hf with hf | hf
            · exact hi.port f hf
            · simp only [List.mem_singleton] at hf; rw [hf]; rfl
          · simp only [LSock.add, hi.known]
        obtain ⟨a, b, c, d, e, g⟩ := ih _ hi'
        refine ⟨a, b, fun f hf => c f (List.mem_append_left _ hf), fun f hf => ?_, ?_, ?_⟩
        · rcases d f hf with x | x
          · rcases List.mem_append.mp x with x | x
            · exact .inl x
            · simp only [List.mem_singleton] at x
              exact .inr ⟨by rw [x]; simp, by rw [x]; exact h1⟩
          · exact .inr ⟨by simp [x.1], x.2⟩
        · intro x hx hne hall
          rcases List.mem_cons.mp hx with rfl | hx
          · exact ⟨_, c _ (List.mem_append_right _ (List.mem_singleton.mpr rfl)), rfl⟩
          · exact e x hx hne hall
        · intro hn hm hd
          have hnc := List.nodup_cons.mp hn
          refine g hnc.2 ?_ ?_
          · simp only [LSock.add, List.map_append, List.map_cons, List.map_nil]
            refine List.nodup_append.mpr ⟨hm, by simp, ?_⟩
            intro x hx y hy
            simp only [List.mem_singleton] at hy
            obtain ⟨f, hf, rfl⟩ := List.mem_map.mp hx
            rw [hy]
            rcases hd f hf with z | z
            · intro he; exact z (by rw [he]; simp)
            · rw [z]; exact Ne.symm h1
          · intro f hf
            rcases List.mem_append.mp hf with hf | hf
            · rcases hd f hf with x | x
              · exact .inl fun hx => x (by simp [hx])
              · exact .inr x
            · simp only [List.mem_singleton] at hf
              rw [hf]; exact .inl hnc.1
      · rw [if_neg h2]
        have hi' : ListenInv { s with tries := s.tries + 1 } := ⟨hi.port, hi.known⟩
        obtain ⟨a, b, c, d, e, g⟩ := ih _ hi'
        refine ⟨a, b, c, fun f hf => ?_, ?_, ?_⟩
        · rcases d f hf with x | x
          · exact .inl x
          · exact .inr ⟨by simp [x.1], x.2⟩
        · intro x hx hne hall
          rcases List.mem_cons.mp hx with rfl | hx
          · exact absurd (hall _) h2
          · exact e x hx hne hall
        · intro hn hm hd
          refine g (List.nodup_cons.mp hn).2 hm fun f hf => ?_
          rcases hd f hf with x | x
          · exact .inl fun hx => x (by simp [hx])
          · exact .inr x

/-- What is promised of a receiver that listens: all its sockets are bound to the port it tells
the sender; no other listening socket is open; every family that the system offers for that port
and that can be bound is listened on; none twice. -/
structure Listens (h : LHost) (s : LSock) : Prop where
  any : s.fds ≠ []
  port : ∀ f ∈ s.fds, f.port = s.port
  known : s.openFds = s.fds
  all : ∀ l, h.lookup s.port = some l → ∀ fam ∈ l, fam ≠ 0 → (∀ k, h.attempt k fam s.port = true) →
    ∃ f ∈ s.fds, f.fam = fam
  once : (∀ p l, h.lookup p = some l → l.Nodup) → (s.fds.map LFd.fam).Nodup

theorem bindFirst_spec (h : LHost) (l : List Nat) (s : LSock) (h1 : s.fds = []) (h2 : s.openFds = []) :
    (bindFirst h l s).openFds = (bindFirst h l s).fds ∧ ((bindFirst h l s).fds ≠ [] → Listens h (bindFirst h l s)) := by
  induction l generalizing s with
  | nil => simp only [bindFirst]; exact ⟨by rw [h1, h2], fun h => absurd h1 h⟩
  | cons fam rest ih =>
    simp only [bindFirst]
    have next := ih { s with tries := s.tries + 1 } h1 h2
    split
    · split
      · split
        · rename_i a l hl
          have hi : ListenInv (LSock.add { s with port := h.pick s.tries } ⟨s.tries, fam, h.pick s.tries⟩) := by
            constructor
            · intro f hf
              simp only [LSock.add, h1, List.nil_append, List.mem_singleton] at hf
              rw [hf]; rfl
            · simp only [LSock.add, h1, h2]
          obtain ⟨a1, b, c, d, e, g⟩ := bindRest_spec h fam (a :: l) _ hi
          refine ⟨a1.known, fun hne => ⟨hne, a1.port, a1.known, ?_, ?_⟩⟩
          · intro l' hl' x hx _ hall
            have hb : h.lookup (h.pick s.tries) = some l' := by rw [← hl']; exact congrArg _ b.symm
            have hl2 : h.lookup (h.pick s.tries) = some (a :: l) := hl
            rw [hl2] at hb
            cases hb
            by_cases hxf : x = fam
            · exact ⟨_, c ⟨s.tries, fam, h.pick s.tries⟩ (by simp [LSock.add]), hxf.symm⟩
            · exact e x hx hxf fun k => (congrArg (h.attempt k x) b).symm.trans (hall k)
          · intro hnd
            refine g (hnd _ _ hl) (by simp [LSock.add, h1]) fun f hf => ?_
            simp only [LSock.add, h1, List.nil_append, List.mem_singleton] at hf
            rw [hf]; exact .inr rfl
        · exact next
      · exact next
    · exact next

/-- **C77**: after `listen` has succeeded the receiver listens; when it fails no socket is left
open.  With static ports the port is the one that was asked for. -/
theorem C77_listen (h : LHost) (staticPorts : Bool) (s : LSock) (h1 : s.fds = []) (h2 : s.openFds = []) :
    ((listenSock h staticPorts s).1 = eOK → Listens h (listenSock h staticPorts s).2 ∧
      (staticPorts = true → s.port ≠ 0 → (listenSock h staticPorts s).2.port = s.port)) ∧
    ((listenSock h staticPorts s).1 ≠ eOK → (listenSock h staticPorts s).2.openFds = []) := by
  unfold listenSock
  rw [if_neg (by simp [h1])]
  simp only []
  generalize hp : (if staticPorts = true then s.port else 0) = port
  cases hl : h.lookup port with
  | none => exact ⟨fun h => absurd (show eCONN_ERROR = eOK from h) (by decide), fun _ => h2⟩
  | some l =>
    simp only []
    by_cases h0 : port = 0
    · rw [if_pos h0]
      obtain ⟨a, b⟩ := bindFirst_spec h l s h1 h2
      by_cases he : (bindFirst h l s).fds = []
      · rw [if_pos he]
        exact ⟨fun h => absurd (show eCONN_ERROR_RETRYABLE = eOK from h) (by decide), fun _ => by simp only []; rw [a, he]⟩
      · rw [if_neg he]
        refine ⟨fun _ => ⟨b he, fun hs hne => ?_⟩, fun h => absurd rfl h⟩
        rw [if_pos hs] at hp
        exact absurd (hp.trans h0) hne
    · rw [if_neg h0]
      have hst : staticPorts = true := by
        cases staticPorts
        · exact absurd hp.symm h0
        · rfl
      rw [if_pos hst] at hp
      subst hp
      have hi : ListenInv s := ⟨by simp [h1], by rw [h1, h2]⟩
      obtain ⟨a, b, c, d, e, g⟩ := bindRest_spec h 0 l s hi
      by_cases he : (bindRest h s.port 0 l s).fds = []
      · rw [if_pos he]
        exact ⟨fun h => absurd (show eCONN_ERROR_RETRYABLE = eOK from h) (by decide), fun _ => by simp only []; rw [a.known, he]⟩
      · rw [if_neg he]
        refine ⟨fun _ => ⟨⟨he, a.port, a.known, ?_, ?_⟩, fun _ _ => b⟩, fun h => absurd rfl h⟩
        · intro l' hl' x hx hx0 hall
          rw [b] at hl'
          rw [hl] at hl'
          cases hl'
          exact e x hx hx0 fun k => by have := hall k; rw [b] at this; exact this
        · intro hnd
          exact g (hnd _ _ hl) (by simp [h1]) (by simp [h1])

/-- **C77**: closing leaves nothing open. -/
theorem C77_close (h : LHost) (s : LSock) (hs : Listens h s) : (closeAll s).openFds = [] ∧ (closeAll s).fds = [] := by
  refine ⟨?_, rfl⟩
  simp only [closeAll, hs.known, List.filter_eq_nil_iff]
  intro f hf
  simp [hf]

/-- Two families; the port 0 becomes port 40000. -/
def exHost : LHost := { lookup := fun _ => some [2, 10], attempt := fun _ _ _ => true, pick := fun _ => 40000, name := fun _ => true }

example : listenSock exHost false ⟨22356, [], [], 0⟩ =
    (eOK, ⟨40000, [⟨0, 2, 40000⟩, ⟨1, 10, 40000⟩], [⟨0, 2, 40000⟩, ⟨1, 10, 40000⟩], 2⟩) := by decide

/-- The port that the system chose for one family is taken for the other: the receiver listens on
one only. -/
example : (listenSock { exHost with attempt := fun _ fam p => fam == 2 || p == 0 } false ⟨22356, [], [], 0⟩).2.fds =
    [⟨0, 2, 40000⟩] := by decide

/-! ### Accepting -/

/-- How far it is from `i` to `j` in a circle of `n`. -/
def circle (n i j : Nat) : Nat := if i ≤ j then j - i else j + n - i

theorem mod_succ {n i : Nat} (hi : i < n) : (i + 1) % n = if i + 1 = n then 0 else i + 1 := by
  split
  · rename_i h; rw [h, Nat.mod_self]
  · exact Nat.mod_eq_of_lt (by omega)

theorem scan_spec {n : Nat} {ready : Nat → Bool} {j : Nat} (hj : j < n) (hr : ready j = true) (count i : Nat)
    (hi : i < n) (hc : circle n i j < count) :
    ∃ c, scanFds n ready count i = (some c, c) ∧ c < n ∧ ready c = true ∧
      (c = j ∨ circle n ((c + 1) % n) j < circle n i j) := by
  induction count generalizing i with
  | zero => omega
  | succ count ih =>
    simp only [scanFds]
    cases hri : ready i
    · simp only [Bool.false_eq_true, if_false]
      have hne : i ≠ j := by rintro rfl; rw [hr] at hri; cases hri
      have hms := mod_succ hi
      have hlt : (i + 1) % n < n := Nat.mod_lt _ (by omega)
      have hd : circle n ((i + 1) % n) j + 1 = circle n i j := by
        rw [hms]; unfold circle
        split <;> (repeat' split) <;> omega
      obtain ⟨c, h1, h2, h3, h4⟩ := ih _ hlt (by omega)
      exact ⟨c, h1, h2, h3, h4.imp id fun h => by omega⟩
    · simp only [if_true]
      refine ⟨i, rfl, hi, hri, ?_⟩
      by_cases he : i = j
      · exact .inl he
      · right
        rw [mod_succ hi]; unfold circle
        split <;> (repeat' split) <;> omega

theorem startIndex_lt {n : Nat} (last : Nat) (cur : Bool) (hn : 0 < n) : startIndex last n cur < n := by
  unfold startIndex
  split
  · exact hn
  · split
    · omega
    · exact Nat.mod_lt _ hn

theorem circle_lt {n i j : Nat} (hi : i < n) (hj : j < n) : circle n i j < n := by
  unfold circle; split <;> omega

/-- **C77**: a connection is taken if there is one on any address. -/
theorem C77_found (n last : Nat) (cur : Bool) (ready : Nat → Bool) (j : Nat) (hj : j < n) (hr : ready j = true) :
    ∃ c, acceptScan n last cur ready = (some c, c) ∧ c < n ∧ ready c = true := by
  have hs := startIndex_lt (n := n) last cur (by omega)
  obtain ⟨c, h1, h2, h3, -⟩ := scan_spec hj hr n _ hs (circle_lt hs hj)
  exact ⟨c, h1, h2, h3⟩

/-- Calls one after the other, `readys` saying on which addresses there are connections. -/
def acceptCalls (n : Nat) : Nat → List (Nat → Bool) → List (Option Nat)
  | _, [] => []
  | last, r :: rs => (acceptScan n last false r).1 :: acceptCalls n (acceptScan n last false r).2 rs

/-- **C77**: no address is forgotten: of as many calls as there are addresses, if at each of them
there is a connection on address `j`, one takes it, whatever comes on the other addresses. -/
theorem C77_fair (n last j : Nat) (hj : j < n) (readys : List (Nat → Bool)) (hr : ∀ r ∈ readys, r j = true)
    (hlen : n ≤ readys.length) : some j ∈ acceptCalls n last readys := by
  have key : ∀ (readys : List (Nat → Bool)) (last : Nat), (∀ r ∈ readys, r j = true) →
      circle n (startIndex last n false) j < readys.length → some j ∈ acceptCalls n last readys := by
    intro readys
    induction readys with
    | nil => intro last _ h; simp at h
    | cons r rs ih =>
      intro last hr hd
      have hs := startIndex_lt (n := n) last false (by omega)
      obtain ⟨c, h1, h2, h3, h4⟩ := scan_spec hj (hr r (by simp)) n _ hs (circle_lt hs hj)
      have h1' : acceptScan n last false r = (some c, c) := h1
      simp only [acceptCalls, h1']
      rcases h4 with rfl | h4
      · simp
      · refine List.mem_cons_of_mem _ (ih c (fun x hx => hr x (by simp [hx])) ?_)
        have : startIndex c n false = (c + 1) % n := by
          unfold startIndex; rw [if_neg (by omega)]; rfl
        rw [this]
        simp only [List.length_cons] at hd
        omega
  have hs := startIndex_lt (n := n) last false (by omega)
  exact key readys last hr (Nat.lt_of_lt_of_le (circle_lt hs hj) hlen)

/-- **C77**: after a connection that was good, the address it came from is tried first. -/
theorem C77_same_address (n last : Nat) (ready : Nat → Bool) (hl : last < n) (hr : ready last = true) :
    acceptScan n last true ready = (some last, last) := by
  unfold acceptScan startIndex
  rw [if_neg (by omega), if_pos rfl]
  obtain ⟨k, rfl⟩ : ∃ k, n = k + 1 := ⟨n - 1, by omega⟩
  simp only [scanFds]
  rw [if_pos hr]

/-- Address 0 always has a connection, address 1 too: they alternate. -/
example : acceptCalls 2 0 [fun _ => true, fun _ => true, fun _ => true] = [some 1, some 0, some 1] := by decide

/-! ### Connecting -/

/-- An address that can be connected to in time. -/
def AddrAns.good (o : ConnOpts) : AddrAns → Prop
  | .connects => True
  | .pending (some r) true => 0 ≤ r ∧ r < o.connectTimeout
  | _ => False

/-- An address that fails, and in time. -/
def AddrAns.bad (o : ConnOpts) : AddrAns → Prop
  | .fails => True
  | .pending (some r) false => 0 ≤ r ∧ r < o.connectTimeout
  | _ => False

theorem connectWait_ready {o : ConnOpts} {r start : Int} (hi : 0 ≤ o.interval) (h0 : 0 ≤ r)
    (h1 : r < o.connectTimeout) :
    ∃ t, connectWait o.interval o.connectTimeout (some (start + r)) none start start = .ok (.ready, t) := by
  obtain ⟨w, t, h, -, -, -, h4, h5, -⟩ :=
    C76_connect_partial o.interval o.connectTimeout (some (start + r)) none start (by omega) hi
  cases w with
  | ready => exact ⟨t, h⟩
  | timeout =>
    have := (h4 rfl).1
    rw [(isBy_some).2 (by omega)] at this; cases this
  | abort => exact absurd (h5 rfl) (by simp [isBy])

/-- The full statement: a sender thread connects if any address of the receiver's host accepts the
connection in time.  It is false (`C78_violated`).  It holds if the addresses before that one
refuse the connection instead of leaving it unanswered. -/
theorem C78_tries_all_partial (o : ConnOpts) (hi : 0 ≤ o.interval) (pre : List AddrAns) (a : AddrAns)
    (post : List AddrAns) (now : Int) (hb : ∀ x ∈ pre, x.bad o) (ha : a.good o) :
    ∃ t, connectAddrs o none 0 (pre ++ a :: post) now = .ok { code := eOK, addr := pre.length, time := t } := by
  have key : ∀ (pre : List AddrAns) (i : Nat) (now : Int), (∀ x ∈ pre, x.bad o) →
      ∃ t, connectAddrs o none i (pre ++ a :: post) now = .ok { code := eOK, addr := i + pre.length, time := t } := by
    intro pre
    induction pre with
    | nil =>
      intro i now _
      cases a with
      | fails => exact absurd ha (by simp [AddrAns.good])
      | connects => exact ⟨now, rfl⟩
      | pending after ok =>
        cases after with
        | none => exact absurd ha (by simp [AddrAns.good])
        | some r =>
          cases ok with
          | false => exact absurd ha (by simp [AddrAns.good])
          | true =>
            obtain ⟨t, ht⟩ := connectWait_ready (o := o) (start := now) hi ha.1 ha.2
            exact ⟨t, by simp only [List.nil_append, connectAddrs, Option.map_some, ht]; rfl⟩
    | cons x pre ih =>
      intro i now hb
      have hlen : i + (x :: pre).length = (i + 1) + pre.length := by simp; omega
      rw [hlen]
      have hx := hb x (by simp)
      have hrest : ∀ y ∈ pre, y.bad o := fun y hy => hb y (by simp [hy])
      cases x with
      | fails => exact ih (i + 1) now hrest
      | connects => exact absurd hx (by simp [AddrAns.bad])
      | pending after ok =>
        cases after with
        | none => exact absurd hx (by simp [AddrAns.bad])
        | some r =>
          cases ok with
          | true => exact absurd hx (by simp [AddrAns.bad])
          | false =>
            obtain ⟨t, ht⟩ := connectWait_ready (o := o) (start := now) hi hx.1 hx.2
            obtain ⟨t', ht'⟩ := ih (i + 1) t hrest
            exact ⟨t', by simp only [List.cons_append, connectAddrs, Option.map_some, ht]; simpa using ht'⟩
  simpa using key pre 0 now hb

/-- One address that leaves the connection unanswered is enough: the others are not tried.  It is
the same at every attempt, so the thread gives up in the end although the receiver can be
reached. -/
theorem C78_violated (o : ConnOpts) (hi : 0 ≤ o.interval) (ht : 0 < o.connectTimeout) (rest : List AddrAns) (now : Int) :
    connectAddrs o none 0 (.pending none true :: rest) now =
      .ok { code := eCONN_ERROR_RETRYABLE, time := now + o.connectTimeout } ∧
    ∀ aborted, (∀ k, aborted k = false) →
      connectToReceiver o (fun _ => eCONN_ERROR_RETRYABLE) aborted = (eCONN_ERROR, (max 1 o.maxRetries).toNat) := by
  constructor
  · obtain ⟨w, t, h, -, -, h3, h4, h5, -⟩ := C76_connect_partial o.interval o.connectTimeout none none now ht hi
    cases w with
    | ready => exact absurd (h3 rfl) (by simp [isBy])
    | abort => exact absurd (h5 rfl) (by simp [isBy])
    | timeout =>
      simp only [connectAddrs, Option.map_none, h]
      rw [(h4 rfl).2]
  · intro aborted ha
    have key : ∀ left k, connectTries (fun _ => eCONN_ERROR_RETRYABLE) aborted left k = (eCONN_ERROR, k + left) := by
      intro left
      induction left with
      | zero => intro k; rfl
      | succ left ih =>
        intro k
        simp only [connectTries]
        rw [if_neg (by decide), if_neg (by decide), ha k]
        simp only [Bool.false_eq_true, if_false]
        rw [ih]
        simp only [Prod.mk.injEq, true_and]; omega
    unfold connectToReceiver
    rw [key]
    simp only [Prod.mk.injEq, true_and]
    split <;> omega

/-- **C78**: a connection that is reported was made: the address it names accepted. -/
theorem C78_sound (o : ConnOpts) (abortAt : Option Int) (addrs : List AddrAns) (now : Int) (r : ConnRes)
    (h : connectAddrs o abortAt 0 addrs now = .ok r) (hc : r.code = eOK) :
    addrs[r.addr]? = some .connects ∨ ∃ after, addrs[r.addr]? = some (.pending after true) := by
  have key : ∀ (addrs : List AddrAns) (i : Nat) (now : Int), connectAddrs o abortAt i addrs now = .ok r →
      i ≤ r.addr ∧ (addrs[r.addr - i]? = some .connects ∨ ∃ after, addrs[r.addr - i]? = some (.pending after true)) := by
    intro addrs
    induction addrs with
    | nil => intro i now h; cases h; cases hc
    | cons a rest ih =>
      intro i now h
      have step : ∀ now', connectAddrs o abortAt (i + 1) rest now' = .ok r →
          i ≤ r.addr ∧ ((a :: rest)[r.addr - i]? = some .connects ∨
            ∃ after, (a :: rest)[r.addr - i]? = some (.pending after true)) := by
        intro now' h
        obtain ⟨h1, h2⟩ := ih (i + 1) now' h
        have e : r.addr - i = (r.addr - (i + 1)) + 1 := by omega
        rw [e, List.getElem?_cons_succ]
        exact ⟨by omega, h2⟩
      cases a with
      | fails => exact step now h
      | connects => cases h; exact ⟨Nat.le_refl _, .inl (by simp)⟩
      | pending after ok =>
        simp only [connectAddrs] at h
        split at h
        · cases h
        · cases h; cases hc
        · cases h; cases hc
        · rename_i t ht
          cases ok
          · simp only [Bool.false_eq_true, if_false] at h
            exact step _ h
          · simp only [if_true] at h
            cases h
            exact ⟨Nat.le_refl _, .inr ⟨after, by simp⟩⟩
  simpa using (key addrs 0 now h).2

/-- **C78**: the number of attempts is limited, and success is reported only for one that
succeeded. -/
theorem C78_retries (o : ConnOpts) (try_ : Nat → ErrCode) (aborted : Nat → Bool) :
    let res := connectToReceiver o try_ aborted
    (res.2 : Int) ≤ max 1 o.maxRetries ∧ 1 ≤ res.2 ∧ (res.1 = eOK ↔ try_ (res.2 - 1) = eOK) ∧
      ∀ k, k + 1 < res.2 → try_ k ≠ eOK ∧ try_ k ≠ eCONN_ERROR ∧ aborted k = false := by
  have key : ∀ left k0, (∀ k, k < k0 → try_ k ≠ eOK ∧ try_ k ≠ eCONN_ERROR ∧ aborted k = false) → 0 < left ∨ 0 < k0 →
      k0 ≤ (connectTries try_ aborted left k0).2 ∧ (connectTries try_ aborted left k0).2 ≤ k0 + left ∧
      1 ≤ (connectTries try_ aborted left k0).2 ∧
      ((connectTries try_ aborted left k0).1 = eOK ↔ try_ ((connectTries try_ aborted left k0).2 - 1) = eOK) ∧
      ∀ k, k + 1 < (connectTries try_ aborted left k0).2 → try_ k ≠ eOK ∧ try_ k ≠ eCONN_ERROR ∧ aborted k = false := by
    intro left
    induction left with
    | zero =>
      intro k0 hk hpos
      have hp : 0 < k0 := by omega
      simp only [connectTries]
      refine ⟨Nat.le_refl _, by omega, hp, ?_, fun k h => hk k (by omega)⟩
      constructor
      · intro h; exact absurd h (by decide)
      · intro h; exact absurd h (hk (k0 - 1) (by omega)).1
    | succ left ih =>
      intro k0 hk _
      simp only [connectTries]
      by_cases h1 : try_ k0 = eOK
      · rw [if_pos h1]
        exact ⟨by simp, by simp, by simp, by simp [h1], fun k h => hk k (by simpa using h)⟩
      · rw [if_neg h1]
        by_cases h2 : try_ k0 = eCONN_ERROR
        · rw [if_pos h2]
          exact ⟨by simp, by simp, by simp, by simp [h2], fun k h => hk k (by simpa using h)⟩
        · rw [if_neg h2]
          cases h3 : aborted k0
          · simp only [Bool.false_eq_true, if_false]
            obtain ⟨a, b, c, d, e⟩ := ih (k0 + 1) (by
              intro k hk2
              by_cases he : k = k0
              · subst he; exact ⟨h1, h2, h3⟩
              · exact hk k (by omega)) (.inr (by omega))
            exact ⟨by omega, by omega, c, d, e⟩
          · simp only [if_true]
            refine ⟨by simp, by simp, by simp, ?_, fun k h => hk k (by simpa using h)⟩
            simp only [Nat.add_sub_cancel]
            exact ⟨fun h => absurd h (by decide), fun h => absurd h h1⟩
  simp only []
  unfold connectToReceiver
  generalize hl : (if o.maxRetries < 1 then 1 else o.maxRetries.toNat) = left
  have hl1 : 1 ≤ left ∧ (left : Int) ≤ max 1 o.maxRetries := by rw [← hl]; split <;> omega
  obtain ⟨a, b, c, d, e⟩ := key left 0 (by simp) (.inl (by omega))
  exact ⟨by omega, c, d, e⟩

/-- A host with an address of each family, the first one refused. -/
example : ∃ t, connectAddrs {} none 0 [.fails, .pending (some 30) true] 0 = .ok { code := eOK, addr := 1, time := t } :=
  C78_tries_all_partial {} (by decide) [.fails] (.pending (some 30) true) [] 0 (by simp [AddrAns.bad])
    (by simp [AddrAns.good])

/-- The same host when packets to the first address are dropped. -/
example : connectAddrs {} none 0 [.pending none true, .pending (some 30) true] 0 =
    .ok { code := eCONN_ERROR_RETRYABLE, time := 1000 } :=
  (C78_violated {} (by decide) (by decide) _ 0).1

end Wdt
