import Verif.Lemmas.AppOptions
/-
C101: applications that share a process, their objects and their options.
-/
namespace Wdt

/-- In every history of calls by any number of threads, two references that `initializeWdt` and
`getWdt` returned are to the same object exactly if they were asked for by the same name and no
`releaseWdt` of that name lies between the two lookups; and every one of them is to an object that
was made for that name and has been initialised. -/
theorem C101_one_object (flags : AppOpts) (es : List AppEvent) (s : AppSys) (h : appRun { flags := flags } es = .ok s) :
    (∀ r1 ∈ s.rets, ∀ r2 ∈ s.rets, r1.id = r2.id ↔ r1.name = r2.name ∧ r1.k = r2.k) ∧
    ∀ r ∈ s.rets, ∃ o, s.objs[r.id]? = some o ∧ o.owner = r.name ∧ o.initDone = true ∧ (o.alive = true ↔ r.k = s.released r.name) := by
  have hi := (AppInv.init flags).run es h
  constructor
  · intro r1 h1 r2 h2
    obtain ⟨⟨o1, a1, b1, c1⟩, _⟩ := hi.rets r1 h1
    obtain ⟨⟨o2, a2, b2, c2⟩, _⟩ := hi.rets r2 h2
    constructor
    · intro he
      rw [he] at a1
      rw [a1] at a2
      cases a2
      exact ⟨b1.symm.trans b2, c1.symm.trans c2⟩
    · rintro ⟨hn, hk⟩
      exact hi.uniq _ _ o1 o2 a1 a2 (by rw [b1, b2, hn]) (by rw [c1, c2, hk])
  · intro r hr
    obtain ⟨⟨o, a, b, c⟩, x, hx, hd⟩ := hi.rets r hr
    rw [a] at hx
    cases hx
    refine ⟨o, a, b, hd, ?_⟩
    constructor
    · intro ha
      obtain ⟨y, p1, _, _, p4⟩ := hi.map _ _ (hi.live _ o a ha)
      rw [a] at p1; cases p1
      rw [← c, p4, b]
    · intro he
      cases ha : o.alive with
      | true => rfl
      | false =>
        have := hi.dead _ o a ha
        rw [b, c, he] at this
        exact absurd this (Nat.lt_irrefl _)

/-- The process is ended by the library's own check only in a `getWdt` of a name none of whose
`initializeWdt` has returned since the last release of it; nothing undefined is done except with an
object that a `releaseWdt` has destroyed (by a call that was under way then, or through a reference
kept); and no call ever blocks. -/
theorem C101_faults (flags : AppOpts) (es : List AppEvent) (s : AppSys) (h : appRun { flags := flags } es = .ok s) (e : AppEvent) :
    (s.event e = .fault .check → ∃ t n, e = .step t ∧
      ((s.pc t = .getLook n ∧ ∀ r ∈ s.rets, r.name = n → r.k < s.released n) ∨
        ∃ id k, s.pc t = .getTest n id k ∧ ∀ r ∈ s.rets, r.name = n → r.k ≠ k)) ∧
    (s.event e = .fault .ub →
      (∃ t n id k, e = .step t ∧ (s.pc t = .initTest n id k ∨ s.pc t = .initName n id k ∨ s.pc t = .initMark n id k ∨
        s.pc t = .initRates n id k ∨ s.pc t = .getTest n id k) ∧ k < s.released n) ∨
      ∃ id, ((∃ v, e = .setOpts id v) ∨ ∃ ns, e = .create id ns) ∧ ∀ r ∈ s.rets, r.id = id → r.k < s.released r.name) ∧
    (s.event e = .blocked → (∃ t c, e = .start t c ∧ s.pc t ≠ .idle) ∨ ∃ t, e = .step t ∧ s.pc t = .idle) ∧
    s.event e ≠ .fault .hang := by
  have hi := (AppInv.init flags).run es h
  have gone : ∀ id n k, s.Is id n k → s.obj id = none → k < s.released n := by
    rintro id n k ⟨o, a, b, c⟩ hn
    unfold AppSys.obj at hn
    rw [a] at hn
    cases ha : o.alive with
    | true => simp [ha] at hn
    | false => have := hi.dead id o a ha; rw [b, c] at this; exact this
  have goneRef : ∀ id, s.obj id = none → ∀ r ∈ s.rets, r.id = id → r.k < s.released r.name := by
    intro id hn r hr he
    exact gone id _ _ (he ▸ (hi.rets r hr).1) hn
  cases e with
  | start t c =>
    dsimp only [AppSys.event]
    by_cases hp : s.pc t = .idle
    · rw [if_pos hp]; simp
    · rw [if_neg hp]
      refine ⟨by simp, by simp, fun _ => .inl ⟨t, c, rfl, hp⟩, by simp⟩
  | setOpts id v =>
    dsimp only [AppSys.event]
    cases ho : s.obj id with
    | none =>
      refine ⟨by simp, fun _ => .inr ⟨id, .inl ⟨v, rfl⟩, goneRef id ho⟩, by simp, by simp⟩
    | some o => simp
  | create id ns =>
    dsimp only [AppSys.event]
    cases ho : s.obj id with
    | none =>
      refine ⟨by simp, fun _ => .inr ⟨id, .inr ⟨ns, rfl⟩, goneRef id ho⟩, by simp, by simp⟩
    | some o => simp
  | step t =>
    have hp := hi.pcs t
    dsimp only [AppSys.event]
    unfold AppSys.advance
    split
    · rename_i hpc
      exact ⟨by simp, by simp, fun _ => .inr ⟨t, rfl, hpc⟩, by simp⟩
    · simp
    · simp
    · simp
    · rename_i n id k hpc
      rw [hpc] at hp
      split
      · rename_i ho
        exact ⟨by simp, fun _ => .inl ⟨t, n, id, k, rfl, .inl hpc, gone id n k hp ho⟩, by simp, by simp⟩
      · split <;> simp
    · rename_i n id k hpc
      rw [hpc] at hp
      split
      · rename_i ho
        exact ⟨by simp, fun _ => .inl ⟨t, n, id, k, rfl, .inr (.inl hpc), gone id n k hp ho⟩, by simp, by simp⟩
      · simp
    · rename_i n id k hpc
      rw [hpc] at hp
      split
      · rename_i ho
        exact ⟨by simp, fun _ => .inl ⟨t, n, id, k, rfl, .inr (.inr (.inl hpc)), gone id n k hp ho⟩, by simp, by simp⟩
      · simp
    · rename_i n id k hpc
      rw [hpc] at hp
      split
      · rename_i ho
        exact ⟨by simp, fun _ => .inl ⟨t, n, id, k, rfl, .inr (.inr (.inr (.inl hpc))), gone id n k hp.1 ho⟩, by simp, by simp⟩
      · simp
    · rename_i n hpc
      split
      · rename_i hf
        refine ⟨fun _ => ⟨t, n, rfl, .inl ⟨hpc, ?_⟩⟩, by simp, by simp, by simp⟩
        intro r hr hn
        obtain ⟨⟨o, a, b, c⟩, _⟩ := hi.rets r hr
        cases ha : o.alive with
        | true =>
          have := hi.live _ o a ha
          rw [b, hn] at this
          exact absurd this (AppSys.find_none hf _)
        | false =>
          have := hi.dead _ o a ha
          rw [b, c, hn] at this
          exact this
      · simp
    · rename_i n id k hpc
      rw [hpc] at hp
      split
      · rename_i ho
        exact ⟨by simp, fun _ => .inl ⟨t, n, id, k, rfl, .inr (.inr (.inr (.inr hpc))), gone id n k hp ho⟩, by simp, by simp⟩
      · rename_i o ho
        split
        · simp
        · rename_i hd
          refine ⟨fun _ => ⟨t, n, rfl, .inr ⟨id, k, hpc, ?_⟩⟩, by simp, by simp, by simp⟩
          rintro r hr hn rfl
          obtain ⟨⟨o1, a1, b1, c1⟩, x, hx, hdone⟩ := hi.rets r hr
          obtain ⟨o2, a2, b2, c2⟩ := hp
          have he := hi.uniq _ _ o1 o2 a1 a2 (by rw [b1, b2, hn]) (by rw [c1, c2])
          rw [he, (AppSys.obj_some ho).1] at hx
          cases hx
          exact hd hdone
    · rename_i n hpc
      split
      · simp
      · rename_i id hf
        obtain ⟨o, a, b, _⟩ := hi.map n id (AppSys.find_some hf)
        have : s.obj id = some o := by unfold AppSys.obj; rw [a]; simp [b]
        rw [this]; simp

/-- Whether a sender is made, and with which options: after any history, `createSender` on an
object that has not been released makes one exactly if the number of senders made for that object is
below the limit of the command line and the number made in the namespace is below the limit the
options said at the first use of the namespace (no limit counts if it is not positive); the sender
gets the options that were last set through a reference to that object (those of the command line
if none were), and the rate they say.  What is set for another application has no influence.
Missing from the full statement: that the limits are those of the options
(`C101_violated_limits`). -/
theorem C101_options_partial (flags : AppOpts) (es : List AppEvent) (s s' : AppSys) (h : appRun { flags := flags } es = .ok s)
    (id : Nat) (ns : Bytes) (l : Int) (hc : s.event (.create id ns) = .ok s') (hl : FirstUse flags (es ++ [.create id ns]) id ns l) :
    s'.xfers = s.xfers ++
      if (flags.globalLimit ≤ 0 ∨ (madeFor s.xfers id : Int) < flags.globalLimit) ∧ (l ≤ 0 ∨ (madeIn s.xfers id ns : Int) < l) then
        [⟨id, ns, lastOptions flags id es, (lastOptions flags id es).rate⟩]
      else [] := by
  have hi := (AppOInv.init flags).run flags es [] h
  dsimp only [AppSys.event] at hc
  split at hc
  · exact absurd hc (by simp)
  · rename_i o ho
    cases hc
    have hr := createSender_result (hi.objs id o (AppSys.obj_some ho).1) ns hl
    dsimp only
    rw [hr]
    congr 1
    split <;> rfl

/-- There is always a first use: the hypothesis of `C101_options_partial` can be met for every call. -/
theorem C101_first_use (flags : AppOpts) (es : List AppEvent) (id : Nat) (ns : Bytes) :
    ∃ l, FirstUse flags (es ++ [.create id ns]) id ns l := by
  have split : ∀ (xs : List AppEvent), AppEvent.create id ns ∈ xs →
      ∃ p q, xs = p ++ AppEvent.create id ns :: q ∧ AppEvent.create id ns ∉ p := by
    intro xs
    induction xs with
    | nil => intro h; exact absurd h (by simp)
    | cons x xs ih =>
      intro h
      by_cases he : AppEvent.create id ns = x
      · exact ⟨[], xs, by rw [he]; rfl, by simp⟩
      · rcases List.mem_cons.1 h with h | h
        · exact absurd h he
        · obtain ⟨p, q, h1, h2⟩ := ih h
          refine ⟨x :: p, q, by rw [h1]; rfl, ?_⟩
          intro hm
          rcases List.mem_cons.1 hm with hm | hm
          · exact he hm
          · exact h2 hm
  by_cases hm : AppEvent.create id ns ∈ es
  · obtain ⟨pre, post, h1, h2⟩ := split es hm
    exact ⟨_, FirstUse.snoc ⟨pre, post, h1, h2, rfl⟩ _⟩
  · exact ⟨_, es, [], rfl, hm, rfl⟩

/-- What a history ended with: the senders made and the references returned, or why not. -/
def appOutcome : Res AppSys → Except (Option Fault) (List AppXfer × List AppRet)
  | .ok s => .ok (s.xfers, s.rets)
  | .fault f => .error (some f)
  | .blocked => .error none

/-- The name of an application, "a". -/
def exApp : Bytes := [97]

/-- `initializeWdt("a")` by thread 0, from the beginning to the end (the first such call of the process). -/
def exInitCall : List AppEvent :=
  [.start 0 (.initialize exApp), .step 0, .step 0, .step 0, .step 0, .step 0, .step 0, .step 0]

/-- The limits that an application sets in its options after `initializeWdt` are not obeyed: with
a limit of one sender set there two are made, because the limit was taken from the command line
before; and a limit per namespace goes on to apply after it has been lifted. -/
theorem C101_violated_limits :
    (appOutcome (appRun { flags := {} } (exInitCall ++ [.setOpts 0 { globalLimit := 1 }, .create 0 [], .create 0 []]))).map (·.1.length)
      = .ok 2 ∧
    (appOutcome (appRun { flags := {} }
      (exInitCall ++ [.setOpts 0 { nsLimit := 1 }, .create 0 [], .setOpts 0 {}, .create 0 []]))).map (·.1.length) = .ok 1 := by
  constructor <;> rfl

/-- A `getWdt` while another thread is inside `initializeWdt` of the same name ends the process. -/
theorem C101_violated_race :
    appOutcome (appRun { flags := {} } (exInitCall.take 5 ++ [.start 1 (.get exApp), .step 1, .step 1])) = .error (some .check) := by
  rfl

/-- A reference kept over `releaseWdt` is a reference to a destroyed object. -/
theorem C101_violated_release :
    appOutcome (appRun { flags := {} } (exInitCall ++ [.start 1 (.release exApp), .step 1, .setOpts 0 {}])) = .error (some .ub) := by
  rfl

/-- `C101_one_object`, `C101_faults`: two names, one of them released and initialised again. -/
example : (appOutcome (appRun { flags := {} } (exInitCall ++
    [.start 1 (.get exApp), .step 1, .step 1, .start 2 (.initialize [98]), .step 2, .step 2, .step 2, .step 2, .step 2, .step 2,
      .start 1 (.release exApp), .step 1, .start 0 (.initialize exApp), .step 0, .step 0, .step 0, .step 0, .step 0, .step 0]))).map
      (·.2.map fun r => (r.name, r.k, r.id)) =
    .ok [(exApp, 0, 0), (exApp, 0, 0), ([98], 0, 1), (exApp, 1, 2)] := by
  rfl

/-- `C101_options_partial`: two applications, the options of one do not reach the other. -/
example : (appOutcome (appRun { flags := { rate := 7 } } (exInitCall ++
    [.start 2 (.initialize [98]), .step 2, .step 2, .step 2, .step 2, .step 2, .step 2, .setOpts 0 { rate := 3, other := 1 },
      .create 0 [], .create 1 []]))).map (·.1) =
    .ok [⟨0, [], { rate := 3, other := 1 }, 3⟩, ⟨1, [], { rate := 7 }, 7⟩] := by
  rfl

/-- ... and a first use with a limit. -/
example : FirstUse {} [.setOpts 0 { nsLimit := 1 }, .create 0 [], .setOpts 0 {}, .create 0 []] 0 [] 1 :=
  ⟨[.setOpts 0 { nsLimit := 1 }], [.setOpts 0 {}, .create 0 []], rfl, by decide, rfl⟩

end Wdt
