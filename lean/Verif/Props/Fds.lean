import Verif.Lemmas.Fds
import Mathlib.Data.List.Perm.Subperm
/-
C94: files and sockets that wdt opens are closed exactly once, and no others are touched.
-/
namespace Wdt

/-- Whatever the threads of any number of transfers and the application do, and whatever numbers the system hands
out: no number is closed or used that is not open for the purpose at hand (so none twice, and none
that belongs to the application or to another transfer), no destroyed object is used, and none of the checks
in the way fails. -/
theorem C94_safe (app : Nat → Bool) (budget : Nat → Int) (l : List FdEv) : ∃ s, (FdSys.init app budget).run l = .ok s := by
  obtain ⟨s, h, -⟩ := run_ok l (init_inv app budget)
  exact ⟨s, h⟩

theorem fd_reach {app : Nat → Bool} {budget : Nat → Int} {l : List FdEv} {s : FdSys} (h : (FdSys.init app budget).run l = .ok s) :
    FdInv s ∧ (FdSys.init app budget).Within s := by
  obtain ⟨s', h1, h2, h3⟩ := run_ok l (init_inv app budget)
  rw [h] at h1
  cases h1
  exact ⟨h2, h3⟩

/-- Nothing is left open once the objects of all transfers are gone. -/
theorem C94_no_leak {app : Nat → Bool} {budget : Nat → Int} {l : List FdEv} {s : FdSys} (h : (FdSys.init app budget).run l = .ok s)
    (h1 : ∀ k, s.files k = none) (h2 : ∀ q, s.dirs q = none) (h3 : ∀ t, s.writers t = none) (h4 : ∀ t, s.clients t = none)
    (h5 : ∀ t, s.servers t = none) (h6 : ∀ i, s.logs i = none) (n : Nat) : s.fds n = .free ∨ s.fds n = .app := by
  have hi := (fd_reach h).1
  by_cases hf : s.fds n = .free
  · exact .inl hf
  by_cases ha : s.fds n = .app
  · exact .inr ha
  have := (hi.own n (s.fds n) hf ha).1 rfl
  cases ho : s.fds n with
  | free => exact absurd ho hf
  | app => exact absurd ho ha
  | dir q => rw [ho] at this; unfold FdSys.held at this; dsimp only at this; rw [h2] at this; cases this
  | file k => rw [ho] at this; obtain ⟨m, a, -⟩ := this; rw [h1] at a; cases a
  | src i =>
    rw [ho] at this; obtain ⟨x, a, -⟩ := this
    obtain ⟨m, b⟩ := hi.srcFile i x a
    rw [h1] at b; cases b
  | writer t => rw [ho] at this; unfold FdSys.held at this; dsimp only at this; rw [h3] at this; cases this
  | client t => rw [ho] at this; obtain ⟨c, a, -⟩ := this; rw [h4] at a; cases a
  | listen t => rw [ho] at this; obtain ⟨c, a, -⟩ := this; rw [h5] at a; cases a
  | conn t => rw [ho] at this; obtain ⟨c, a, -⟩ := this; rw [h5] at a; cases a
  | log i => rw [ho] at this; unfold FdSys.held at this; dsimp only at this; rw [h6] at this; cases this

/-- Destroying a sender whose threads have ended closes every file and directory of it, whatever became of
the transfer: what is open afterwards for a file or a block belongs to another sender. -/
theorem C94_sender_destroyed {app : Nat → Bool} {budget : Nat → Int} {l : List FdEv} {s : FdSys} (h : (FdSys.init app budget).run l = .ok s)
    {q : Nat} (hj : s.joined q = true) (adv : Bool) :
    ∃ s', s.step (.destroyQueue q adv) = .ok s' ∧ ∀ n, s'.fds n ≠ .dir q ∧
      (∀ k, s'.fds n = .file k → ∃ m, s'.files k = some m ∧ m.q ≠ q) ∧
      (∀ i, s'.fds n = .src i → ∃ x m, s'.srcs i = some x ∧ s'.files x.file = some m ∧ m.q ≠ q) ∧
      (∀ k m, s'.files k = some m → m.q ≠ q) := by
  obtain ⟨s', h1, h2, -, -, -, -, h7⟩ := destroyQueue_ok (fd_reach h).1 q adv
  obtain ⟨h7, h8⟩ := h7 hj
  refine ⟨s', h1, fun n => ⟨?_, ?_, ?_, fun k m hm => ((h7 k m).1 hm).2⟩⟩
  · intro hd
    have := (h2.own n (.dir q) (by simp) (by simp)).1 hd
    unfold FdSys.held at this; dsimp only at this
    rw [h8] at this; cases this
  · intro k hk
    obtain ⟨m, hm, -⟩ := (h2.own n (.file k) (by simp) (by simp)).1 hk
    exact ⟨m, hm, ((h7 k m).1 hm).2⟩
  · intro i hi
    obtain ⟨x, hx, -⟩ := (h2.own n (.src i) (by simp) (by simp)).1 hi
    obtain ⟨m, hm⟩ := h2.srcFile i x hx
    exact ⟨x, m, hx, hm, ((h7 _ m).1 hm).2⟩

/-- After a receiver's thread has closed its socket for good no listening descriptor and no connection of it is open. -/
theorem C94_receiver_closed {app : Nat → Bool} {budget : Nat → Int} {l : List FdEv} {s : FdSys} (h : (FdSys.init app budget).run l = .ok s)
    (t : Nat) {e : FdEv} (he : e = .sDrop t ∨ e = .sFinish t true) :
    ∃ s', s.step e = .ok s' ∧ ∀ n, s'.fds n ≠ .listen t ∧ s'.fds n ≠ .conn t := by
  have hi := (fd_reach h).1
  have fin : ∀ {s' : FdSys}, FdInv s' → (∀ c, s'.servers t = some c → c.listen = [] ∧ c.conn = none) → ∀ n, s'.fds n ≠ .listen t ∧ s'.fds n ≠ .conn t := by
    intro s' h2 h3 n
    constructor
    · intro hd
      obtain ⟨c, hc, hn⟩ := (h2.own n (.listen t) (by simp) (by simp)).1 hd
      rw [(h3 c hc).1] at hn; cases hn
    · intro hd
      obtain ⟨c, hc, hn⟩ := (h2.own n (.conn t) (by simp) (by simp)).1 hd
      rw [(h3 c hc).2] at hn; cases hn
  rcases he with rfl | rfl
  · obtain ⟨s', h1, h2, h3⟩ := serverDrop_ok hi t
    exact ⟨s', h1, fin h2.inv fun c hc => by rw [h3] at hc; cases hc⟩
  · obtain ⟨s', h1, h2, h3⟩ := serverCloseAll_ok hi t
    refine ⟨s', h1, fin h2.inv fun c hc => ?_⟩
    rw [h3] at hc
    cases hs : s.servers t with
    | none => rw [hs] at hc; cases hc
    | some d => rw [hs] at hc; cases hc; exact ⟨rfl, rfl⟩

/-- The end of a connection closes it, also when the receiver goes on. -/
theorem C94_connection_closed {app : Nat → Bool} {budget : Nat → Int} {l : List FdEv} {s : FdSys} (h : (FdSys.init app budget).run l = .ok s)
    (t : Nat) {e : FdEv} (he : e = .sClose t ∨ e = .sEnter t ∨ e = .sFinish t false) :
    ∃ s', s.step e = .ok s' ∧ ∀ n, s'.fds n ≠ .conn t := by
  have hi := (fd_reach h).1
  have hcl : ∃ s', s.serverClose t = .ok s' ∧ FdKeep s s' ∧ ∀ c, s'.servers t = some c → c.conn = none := by
    obtain ⟨s', h1, h2, h3⟩ := serverClose_ok hi t
    refine ⟨s', h1, h2, fun c hc => ?_⟩
    rw [h3] at hc
    cases hs : s.servers t with
    | none => rw [hs] at hc; cases hc
    | some d => rw [hs] at hc; cases hc; rfl
  obtain ⟨s1, h1, h2, h3⟩ := hcl
  have fin : ∀ {s' : FdSys}, s'.fds = s1.fds → ∀ n, s'.fds n ≠ .conn t := by
    intro s' hs n hd
    rw [hs] at hd
    obtain ⟨c, hc, hn⟩ := (h2.inv.own n (.conn t) (by simp) (by simp)).1 hd
    rw [h3 c hc] at hn; cases hn
  rcases he with rfl | rfl | rfl
  · exact ⟨s1, h1, fin rfl⟩
  · unfold FdSys.step FdSys.serverEnter
    dsimp only
    rw [h1]
    dsimp only
    cases hs : s1.servers t with
    | none => exact ⟨s1, rfl, fin rfl⟩
    | some c => exact ⟨_, rfl, fin rfl⟩
  · exact ⟨s1, h1, fin rfl⟩

/-- The end of a block at the receiver closes its file, however it ends; likewise the end of a sender's socket, and
that of the log. -/
theorem C94_closed {app : Nat → Bool} {budget : Nat → Int} {l : List FdEv} {s : FdSys} (h : (FdSys.init app budget).run l = .ok s)
    (t : Nat) {e : FdEv} {o : FdOwner}
    (he : e = .wEnd t ∧ o = .writer t ∨ e = .wDrop t ∧ o = .writer t ∨ e = .wUse t false ∧ o = .writer t ∨ e = .cDrop t ∧ o = .client t ∨ e = .lClose t ∧ o = .log t) :
    ∃ s', s.step e = .ok s' ∧ ∀ n, s'.fds n ≠ o := by
  have hi := (fd_reach h).1
  have finw : ∀ {s' : FdSys}, FdInv s' → (∀ n, s'.writers t ≠ some (some n)) → ∀ n, s'.fds n ≠ .writer t := by
    intro s' h2 h3 n hd
    exact h3 n ((h2.own n (.writer t) (by simp) (by simp)).1 hd)
  rcases he with ⟨rfl, rfl⟩ | ⟨rfl, rfl⟩ | ⟨rfl, rfl⟩ | ⟨rfl, rfl⟩ | ⟨rfl, rfl⟩
  · obtain ⟨s', h1, h2, h3⟩ := writerEnd_ok hi t
    exact ⟨s', h1, finw h2.inv (by rw [h3]; simp)⟩
  · obtain ⟨s', h1, h2, h3⟩ := writerDrop_ok hi t
    exact ⟨s', h1, finw h2.inv (by rw [h3]; simp)⟩
  · unfold FdSys.step FdSys.writerUse
    dsimp only
    cases hw : s.writers t with
    | none => exact ⟨s, rfl, finw hi (by rw [hw]; simp)⟩
    | some w =>
      cases w with
      | none => exact ⟨s, rfl, finw hi (by rw [hw]; simp)⟩
      | some n =>
        dsimp only
        rw [kuse_eq ((hi.own n (.writer t) (by simp) (by simp)).2 hw)]
        obtain ⟨s', h1, h2, h3⟩ := writerDrop_ok hi t
        exact ⟨s', h1, finw h2.inv (by rw [h3]; simp)⟩
  · obtain ⟨s', h1, h2, h3⟩ := clientDrop_ok hi t
    refine ⟨s', h1, fun n hd => ?_⟩
    obtain ⟨c, hc, -⟩ := (h2.inv.own n (.client t) (by simp) (by simp)).1 hd
    rw [h3] at hc; cases hc
  · obtain ⟨s', h1, h2, h3⟩ := logClose_ok hi t
    refine ⟨s', h1, fun n hd => ?_⟩
    have := (h2.inv.own n (.log t) (by simp) (by simp)).1 hd
    unfold FdSys.held at this; dsimp only at this
    rw [h3] at this; cases this

/-- A step of wdt leaves the application's descriptors as they are: it closes none, not even one it was given for a
file, and takes none. -/
theorem C94_app {app : Nat → Bool} {budget : Nat → Int} {l : List FdEv} {s s' : FdSys} (h : (FdSys.init app budget).run l = .ok s)
    {e : FdEv} (he : s.step e = .ok s') (h1 : ∀ r, e ≠ .appOpen r) (h2 : ∀ n, e ≠ .appClose n) (n : Nat) : s'.fds n = .app ↔ s.fds n = .app := by
  obtain ⟨s1, g1, -, g3, -⟩ := step_ok (fd_reach h).1 e
  rw [he] at g1
  cases g1
  refine g3 ?_ n
  cases e <;> simp [FdEv.isApp] at h1 h2 ⊢

/-- A sender thread has at most one file open that it opened itself, a receiver thread at most one, and either at
most one connection. -/
theorem C94_one_per_thread {app : Nat → Bool} {budget : Nat → Int} {l : List FdEv} {s : FdSys} (h : (FdSys.init app budget).run l = .ok s)
    {n n' : Nat} :
    (∀ i, s.fds n = .src i → ∃ t, s.cur t = some i) ∧
    (∀ i i' t, s.fds n = .src i → s.fds n' = .src i' → s.cur t = some i → s.cur t = some i' → n = n') ∧
    (∀ t, s.fds n = .writer t → s.fds n' = .writer t → n = n') ∧
    (∀ t, s.fds n = .client t → s.fds n' = .client t → n = n') ∧
    (∀ t, s.fds n = .conn t → s.fds n' = .conn t → n = n') ∧
    (∀ i, s.fds n = .log i → s.fds n' = .log i → n = n') := by
  have hi := (fd_reach h).1
  refine ⟨?_, ?_, ?_, ?_, ?_, ?_⟩
  · intro i hd
    obtain ⟨x, hx, hn, -⟩ := (hi.own n (.src i) (by simp) (by simp)).1 hd
    cases hh : x.held with
    | true => exact hi.heldCur i x hx hh
    | false => rw [hi.idle i x hx hh] at hn; cases hn
  · intro i i' t hd hd' ht ht'
    rw [ht] at ht'; cases ht'
    obtain ⟨x, hx, hn, -⟩ := (hi.own n (.src i) (by simp) (by simp)).1 hd
    obtain ⟨x', hx', hn', -⟩ := (hi.own n' (.src i) (by simp) (by simp)).1 hd'
    rw [hx] at hx'; cases hx'
    rw [hn] at hn'; cases hn'; rfl
  · intro t hd hd'
    have a : s.writers t = some (some n) := (hi.own n (.writer t) (by simp) (by simp)).1 hd
    have b : s.writers t = some (some n') := (hi.own n' (.writer t) (by simp) (by simp)).1 hd'
    rw [a] at b; cases b; rfl
  · intro t hd hd'
    obtain ⟨x, hx, hn⟩ := (hi.own n (.client t) (by simp) (by simp)).1 hd
    obtain ⟨x', hx', hn'⟩ := (hi.own n' (.client t) (by simp) (by simp)).1 hd'
    rw [hx] at hx'; cases hx'
    rw [hn] at hn'; cases hn'; rfl
  · intro t hd hd'
    obtain ⟨x, hx, hn⟩ := (hi.own n (.conn t) (by simp) (by simp)).1 hd
    obtain ⟨x', hx', hn'⟩ := (hi.own n' (.conn t) (by simp) (by simp)).1 hd'
    rw [hx] at hx'; cases hx'
    rw [hn] at hn'; cases hn'; rfl
  · intro i hd hd'
    have a : s.logs i = some n := (hi.own n (.log i) (by simp) (by simp)).1 hd
    have b : s.logs i = some n' := (hi.own n' (.log i) (by simp) (by simp)).1 hd'
    rw [a] at b; cases b; rfl

/-- Discovery opens ahead at most as many files as the option allows: so many different numbers are at most
open for files of the queue. -/
theorem C94_budget {app : Nat → Bool} {budget : Nat → Int} {l : List FdEv} {s : FdSys} (h : (FdSys.init app budget).run l = .ok s)
    {q : Nat} (hq : 0 ≤ budget q) {ns : List Nat} (hnd : ns.Nodup)
    (hns : ∀ n ∈ ns, ∃ k m, s.fds n = .file k ∧ s.files k = some m ∧ m.q = q) : (ns.length : Int) ≤ budget q := by
  obtain ⟨hi, hw⟩ := fd_reach h
  obtain ⟨h1, h2⟩ := hw q hq
  have h0 : (FdSys.init app budget).opened q = 0 := rfl
  have hb : (FdSys.init app budget).budget q = budget q := rfl
  rw [h0, hb] at h2
  let f : Nat → Nat := fun k => (((s.files k).bind fun m => m.fd).getD 0)
  let p : Nat → Bool := fun k => (s.files k).elim false fun m => m.needToClose && (m.q == q)
  have hsub : ns ⊆ ((List.range s.nfile).filter p).map f := by
    intro n hn
    obtain ⟨k, m, a, b, c⟩ := hns n hn
    obtain ⟨m', b', d, e⟩ := (hi.own n (.file k) (by simp) (by simp)).1 a
    rw [b] at b'; cases b'
    refine List.mem_map.2 ⟨k, List.mem_filter.2 ⟨List.mem_range.2 ?_, ?_⟩, ?_⟩
    · by_cases hk : k < s.nfile
      · exact hk
      · have := hi.fileBound k (by omega)
        rw [b] at this; cases this
    · simp [p, b, d, c]
    · simp [f, b, e]
  have hlen := (List.subperm_of_subset hnd hsub).length_le
  rw [List.length_map, ← List.countP_eq_length_filter] at hlen
  have : ns.length ≤ s.opened q := hlen
  omega

/-- A receiver with a log on one side, a sender with one file opened ahead, one opened by the thread and one lent on the
other; the run ends with everything destroyed. -/
def fdDay : List FdEv :=
  [.lOpen 0 none (some 3) (some 3) false true, .sNew 0, .sListen 0, .sTry 0 (some 4) true, .sTry 0 (some 5) false, .sListened 0,
   .addFile 0 none (some 5), .addFile 0 none none, .addFile 0 (some 0) none, .addBlock 0, .addBlock 1, .addBlock 2,
   .cNew 0, .cCall 0, .cTry 0 (some 6) .next, .cTry 0 (some 7) .good, .sEnter 0, .sAccept 0 (some 6),
   .take 0 0 true none, .read 0 true true, .wOpen 0 { r1 := none, r2 := some 8, again := true, first := true }, .wUse 0 true, .lUse 0,
   .put 0 true, .wEnd 0, .take 0 1 true (some 8), .read 0 true true, .wOpen 0 { r1 := some 9 }, .wUse 0 false, .put 0 true,
   .take 0 2 true none, .read 0 true true, .put 0 true]

example : ((FdSys.init (fun n => decide (n < 3)) fun _ => 1).run fdDay).map (fun s => (List.range 10).map s.fds) =
    .ok [.app, .app, .app, .log 0, .listen 0, .file 0, .conn 0, .client 0, .free, .free] := by decide +kernel

example : ((FdSys.init (fun n => decide (n < 3)) fun _ => 1).run
      (fdDay ++ [.destroyQueue 0 true, .cDrop 0, .sFinish 0 true, .sDrop 0, .lClose 0, .appClose 0])).map (fun s => (List.range 10).map s.fds) =
    .ok [.free, .app, .app, .free, .free, .free, .free, .free, .free, .free] := by decide +kernel

/-- In the middle of a block. -/
example : ((FdSys.init (fun n => decide (n < 3)) fun _ => 1).run (fdDay.take 28)).map (fun s => ((List.range 11).map s.fds, s.cur 0)) =
    .ok ([.app, .app, .app, .log 0, .listen 0, .file 0, .conn 0, .client 0, .src 1, .writer 0, .free], some 1) := by decide +kernel

/-- The hypothesis of `C94_sender_destroyed`: it is met at the end of the day, and not while a thread has a block. -/
example : ((FdSys.init (fun n => decide (n < 3)) fun _ => 1).run fdDay).map (fun s => s.joined 0) = .ok true ∧
    ((FdSys.init (fun n => decide (n < 3)) fun _ => 1).run (fdDay.take 28)).map (fun s => s.joined 0) = .ok false := by decide +kernel

end Wdt
