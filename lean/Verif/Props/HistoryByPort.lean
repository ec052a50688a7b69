import Verif.Lemmas.HistoryByPort
import Verif.Model.Uri
import Mathlib.Tactic.ByContra
/-
C114: every connection has its own account of sent blocks, a checkpoint about a failed connection goes to
the account of that connection, and the thread that was told waits no longer than until that connection's
thread has ended.
-/
namespace Wdt

/-- Whatever the ports are, also if one is listed twice, and whatever ports the receiver names, no thread
fails to find its account and no step crashes, as long as counts and sizes in checkpoints are not
negative. -/
theorem C114_no_crash (ports : List Int) (es : List HpEv) (s : HpSys) (hr : hpRun (hpInit ports) es = .ok s)
    (e : HpEv) (he : ∀ t cp, e = .op t (.localCp cp) → CpNonneg cp)
    (ht : ∀ c ∈ (s.ph e.thread).todo, CpNonneg c) (f : Fault) : hpStep s e ≠ .fault f := by
  have hi := ((HpInv.init ports).run hr).1
  intro hs
  cases e with
  | op t o =>
    simp only [hpStep] at hs
    split at hs
    · rename_i p hph hp
      obtain ⟨h, hh⟩ := hi.has t p hp
      rw [hh] at hs
      dsimp only at hs
      split at hs
      · rename_i g hg
        cases o with
        | add x => cases hg
        | markAll => cases hg
        | localCp cp =>
          obtain ⟨r, hr⟩ := setCheckpoint_total (h := h) (g := false) (he t cp rfl)
          simp only [hpOp, hr] at hg
          cases hg
      · cases hs
    · cases hs
  | err t cps =>
    simp only [hpStep] at hs
    split at hs <;> cases hs
  | next t =>
    simp only [hpStep] at hs
    split at hs
    · cases hs
    · rename_i c cs hph
      split at hs
      · cases hs
      · rename_i h hh
        obtain ⟨r, hr⟩ := setCheckpoint_total (h := h) (g := true)
          (ht c (by show c ∈ (s.ph t).todo; rw [hph]; simp [HpPh.todo]))
        rw [hr] at hs
        cases hs
    · cases hs
  | wake t =>
    simp only [hpStep] at hs
    split at hs
    · split at hs
      · cases hs
      · split at hs <;> cases hs
    · cases hs
  | exit t =>
    simp only [hpStep] at hs
    split at hs
    · rename_i p hph hp
      obtain ⟨h, hh⟩ := hi.has t p hp
      rw [hh] at hs
      cases hs
    · cases hs

/-- If no port is listed twice, what another thread does leaves a thread's account alone, except that it
passes on a checkpoint that names this thread's port; then exactly this checkpoint is applied. -/
theorem C114_own_account (s s' : HpSys) (nd : s.ports.Nodup) (e : HpEv) (hs : hpStep s e = .ok s') (u : Nat) (q : Int)
    (hu : s.ports[u]? = some q) (hne : e.thread ≠ u) :
    s'.hists q = s.hists q ∨
    ∃ c cs h h' code l, e = .next e.thread ∧ s.ph e.thread = .proc (c :: cs) ∧ c.port = q ∧ s.hists q = some h ∧
      setCheckpoint h c true = .ok (code, h', l) ∧ s'.hists q = some h' := by
  have other : ∀ t p, e.thread = t → s.ports[t]? = some p → q ≠ p := by
    intro t p ht hp hq
    subst hq
    exact hne (ht.trans (nodup_port nd hp hu))
  cases e with
  | op t o =>
    simp only [hpStep] at hs
    split at hs
    · rename_i p hph hp
      have := other t p rfl hp
      split at hs
      · cases hs
      · split at hs
        · cases hs
        · cases hs
          left; simp [hpSetH, this]
    · cases hs
  | err t cps =>
    simp only [hpStep] at hs
    split at hs
    · cases hs; left; rfl
    · cases hs
  | next t =>
    simp only [hpStep] at hs
    split at hs
    · cases hs; left; rfl
    · rename_i c cs hph
      split at hs
      · cases hs; left; rfl
      · rename_i h hh
        split at hs
        · cases hs
        · rename_i code h' l hc
          cases hs
          by_cases e : c.port = q
          · subst e
            exact Or.inr ⟨c, cs, h, h', code, l, rfl, hph, rfl, hh, hc, by simp [hpSetH]⟩
          · left
            have : q ≠ c.port := fun h => e h.symm
            simp [hpSetH, this]
    · cases hs
  | wake t =>
    simp only [hpStep] at hs
    split at hs
    · split at hs
      · cases hs
      · split at hs
        · cases hs
        · cases hs; left; rfl
    · cases hs
  | exit t =>
    simp only [hpStep] at hs
    split at hs
    · rename_i p hph hp
      have := other t p rfl hp
      split at hs
      · cases hs
      · cases hs
        left; simp [hpSetH, this]
    · cases hs

/-- The account of thread `t`. -/
def HpSys.account (s : HpSys) (t : Nat) : Option Hist := (s.ports[t]?).bind s.hists

theorem account_set {s : HpSys} (nd : s.ports.Nodup) {t : Nat} {p : Int} (ht : s.ports[t]? = some p) (h : Hist) (ph : Nat → HpPh)
    (u : Nat) : HpSys.account { s with hists := hpSetH s.hists p h, ph := ph } u = if u = t then some h else s.account u := by
  unfold HpSys.account
  dsimp only
  cases hu : s.ports[u]? with
  | none =>
    have : u ≠ t := fun e => by subst e; rw [hu] at ht; cases ht
    simp [this]
  | some q =>
    by_cases e : u = t
    · subst e
      rw [hu] at ht
      cases ht
      simp [hpSetH]
    · have hq : q ≠ p := fun hq => e (nodup_port nd hu (hq ▸ ht))
      simp [hpSetH, hq, e]

/-- If no port is listed twice, the sender works as if each thread had an account of its own, as
`History.lean` has it: a thread's own steps act on its account, a checkpoint about a failed connection acts
on the account of the thread with that port if there is one, and nothing else changes any account. -/
theorem C114_one_account_each (ports : List Int) (nd : ports.Nodup) (es : List HpEv) (s s' : HpSys) (e : HpEv)
    (hr : hpRun (hpInit ports) es = .ok s) (hs : hpStep s e = .ok s') :
    match e with
    | .op t o => ∃ h h', s.account t = some h ∧ hpOp h o = .ok h' ∧ ∀ u, s'.account u = if u = t then some h' else s.account u
    | .next t =>
      (∃ c cs v h code h' l, s.ph t = .proc (c :: cs) ∧ ports[v]? = some c.port ∧ s.account v = some h ∧
        setCheckpoint h c true = .ok (code, h', l) ∧ ∀ u, s'.account u = if u = v then some h' else s.account u) ∨
      ((∀ c cs, s.ph t = .proc (c :: cs) → c.port ∉ ports) ∧ ∀ u, s'.account u = s.account u)
    | .exit t => ∃ h, s.account t = some h ∧ ∀ u, s'.account u = if u = t then some { h with inUse := false } else s.account u
    | _ => ∀ u, s'.account u = s.account u := by
  obtain ⟨hi, hp⟩ := (HpInv.init ports).run hr
  have hp : s.ports = ports := hp
  subst hp
  cases e with
  | op t o =>
    simp only [hpStep] at hs
    split at hs
    · rename_i p hph hp
      split at hs
      · cases hs
      · rename_i h hh
        split at hs
        · cases hs
        · rename_i h' ho
          cases hs
          exact ⟨h, h', by simp [HpSys.account, hp, hh], ho, account_set nd hp h' _⟩
    · cases hs
  | err t cps =>
    simp only [hpStep] at hs
    split at hs
    · cases hs; exact fun _ => rfl
    · cases hs
  | next t =>
    simp only [hpStep] at hs
    split at hs
    · rename_i hph
      cases hs
      exact Or.inr ⟨fun c cs h => (by rw [hph] at h; cases h), fun _ => rfl⟩
    · rename_i c cs hph
      split at hs
      · rename_i hno
        cases hs
        refine Or.inr ⟨fun d ds h hm => ?_, fun _ => rfl⟩
        rw [hph] at h
        cases h
        obtain ⟨v, hv⟩ := List.mem_iff_getElem?.1 hm
        obtain ⟨k, hk⟩ := hi.has v _ hv
        rw [hno] at hk
        cases hk
      · rename_i h hh
        split at hs
        · cases hs
        · rename_i code h' l hc
          cases hs
          obtain ⟨v, hv⟩ := List.mem_iff_getElem?.1 (hi.own _ _ hh)
          exact Or.inl ⟨c, cs, v, h, code, h', l, hph, hv, by simp [HpSys.account, hv, hh], hc, account_set nd hv h' _⟩
    · cases hs
  | wake t =>
    simp only [hpStep] at hs
    split at hs
    · split at hs
      · cases hs
      · split at hs
        · cases hs
        · cases hs; exact fun _ => rfl
    · cases hs
  | exit t =>
    simp only [hpStep] at hs
    split at hs
    · rename_i p hph hp
      split at hs
      · cases hs
      · rename_i h hh
        cases hs
        exact ⟨h, by simp [HpSys.account, hp, hh], account_set nd hp _ _⟩
    · cases hs

/-- If no port is listed twice, a thread that was told of a failed connection goes on only when the thread
of that connection has ended: no block is added to that account afterwards. -/
theorem C114_freed_after_end (ports : List Int) (nd : ports.Nodup) (es : List HpEv) (s s' : HpSys)
    (hr : hpRun (hpInit ports) es = .ok s) (t : Nat) (hs : hpStep s (.wake t) = .ok s') :
    ∃ c cs u, s.ph t = .wait c cs ∧ s.ports[u]? = some c.port ∧ s.ph u = .ended ∧
      ∀ (es' : List HpEv) (s'' : HpSys), hpRun s' es' = .ok s'' → s''.ph u = .ended := by
  obtain ⟨hi, hp⟩ := (HpInv.init ports).run hr
  have nd' : s.ports.Nodup := by rw [hp]; exact nd
  simp only [hpStep] at hs
  split at hs
  · rename_i c cs hph
    split at hs
    · cases hs
    · rename_i h hh
      split at hs
      · cases hs
      · rename_i hnu
        cases hs
        obtain ⟨u, hu⟩ := List.mem_iff_getElem?.1 (hi.own _ _ hh)
        have hend : s.ph u = .ended := by
          by_contra hc
          exact hnu ((hi.use nd' u _ h hu hh).2 hc)
        refine ⟨c, cs, u, hph, hu, hend, ?_⟩
        have hut : u ≠ t := fun e => by subst e; rw [hph] at hend; cases hend
        have stay : ∀ (es : List HpEv) (a b : HpSys), a.ph u = .ended → hpRun a es = .ok b → b.ph u = .ended := by
          intro es
          induction es with
          | nil => intro a b ha h; cases h; exact ha
          | cons e es ih =>
            intro a b ha h
            simp only [hpRun] at h
            split at h
            · rename_i m hm
              refine ih m b ?_ h
              have key : ∀ v x, a.ph v ≠ .ended → hpSetP a.ph v x u = .ended := by
                intro v x hv
                have : u ≠ v := fun e => hv (e ▸ ha)
                simp [hpSetP, this, ha]
              cases e <;> simp only [hpStep] at hm <;> repeat' (split at hm)
              all_goals first
                | (cases hm; exact ha)
                | (cases hm; apply key; simp [*])
                | cases hm
            · cases h
            · cases h
        intro es' s'' h
        exact stay es' _ s'' (by simp [hpSetP, hut, hend]) h
  · cases hs

/-- If no port is listed twice, the threads of a sender can all end, whenever they are asked and without
help from the receiver, exactly if there are no threads of which each has been told to wait for one of
them. -/
theorem C114_ends_iff_partial (ports : List Int) (nd : ports.Nodup) (es : List HpEv) (s : HpSys)
    (hr : hpRun (hpInit ports) es = .ok s) (hn : ∀ t, ∀ c ∈ (s.ph t).todo, CpNonneg c) :
    (∃ es' s', hpRun s es' = .ok s' ∧ ∀ t, t < ports.length → s'.ph t = .ended) ↔
    ¬ ∃ S : Nat → Prop, (∃ t, S t) ∧
      ∀ t, S t → ∃ c ∈ (s.ph t).todo, ∃ u, S u ∧ ports[u]? = some c.port := by
  obtain ⟨hi, hp⟩ := (HpInv.init ports).run hr
  have hp : s.ports = ports := hp
  subst hp
  constructor
  · rintro ⟨es', s', h1, h2⟩ ⟨S, ⟨t, ht⟩, hS⟩
    have hst : HpStuck s S := ⟨⟨t, ht⟩, hS⟩
    have := HpStuck.run nd hi hst h1
    obtain ⟨c, hc, _⟩ := this.2 t ht
    obtain ⟨c0, hc0, _⟩ := hS t ht
    have hlt : t < s.ports.length := by
      obtain ⟨p, hp⟩ := hi.act t (fun h => by rw [h] at hc0; cases hc0)
      exact (List.getElem?_eq_some_iff.1 hp).1
    rw [h2 t hlt] at hc
    cases hc
  · intro hno
    have main : ∀ (k : Nat) (s : HpSys), HpInv s → s.ports.Nodup → (∀ t, ∀ c ∈ (s.ph t).todo, CpNonneg c) →
        ¬ (∃ S, HpStuck s S) → ((List.range s.ports.length).filter fun t => decide (s.ph t ≠ .ended)).length ≤ k →
        ∃ es' s', hpRun s es' = .ok s' ∧ ∀ t, t < s.ports.length → s'.ph t = .ended := by
      intro k
      induction k with
      | zero =>
        intro s hi nd hn hno hk
        refine ⟨[], s, rfl, fun t ht => ?_⟩
        by_contra hne
        have : t ∈ (List.range s.ports.length).filter fun t => decide (s.ph t ≠ .ended) := by
          simp [List.mem_filter, ht, hne]
        rw [List.length_eq_zero_iff.1 (Nat.le_zero.1 hk)] at this
        cases this
      | succ k ih =>
        intro s hi nd hn hno hk
        by_cases hall : ∀ t, t < s.ports.length → s.ph t = .ended
        · exact ⟨[], s, rfl, hall⟩
        · have : ∃ t, t < s.ports.length ∧ s.ph t ≠ .ended ∧
              ∀ c ∈ (s.ph t).todo, ∀ u, s.ports[u]? = some c.port → s.ph u = .ended := by
            by_contra hcon
            apply hno
            refine ⟨fun t => t < s.ports.length ∧ s.ph t ≠ .ended, ?_, ?_⟩
            · by_contra h
              exact hall fun t ht => by
                by_contra hne
                exact h ⟨t, ht, hne⟩
            · rintro t ⟨ht, hne⟩
              by_contra h
              refine hcon ⟨t, ht, hne, fun c hc u hu => ?_⟩
              by_contra hue
              exact h ⟨c, hc, u, ⟨(List.getElem?_eq_some_iff.1 hu).1, hue⟩, hu⟩
          obtain ⟨t, ht, hne, hfree⟩ := this
          obtain ⟨es1, s1, h1, h2⟩ := hp_drain _ s t hi nd hne ⟨s.ports[t], by simp [ht]⟩ (Nat.le_refl _) (hn t) hfree
          obtain ⟨hi1, hp1⟩ := hi.run h1
          have hph : ∀ u, s1.ph u = if u = t then .ended else s.ph u := by intro u; rw [h2]; rfl
          obtain ⟨es2, s2, h3, h4⟩ := ih s1 hi1 (by rw [hp1]; exact nd)
            (by
              intro u c hc
              rw [hph] at hc
              split at hc
              · cases hc
              · exact hn u c hc)
            (by
              rintro ⟨S, hSne, hS⟩
              refine hno ⟨S, hSne, fun u hu => ?_⟩
              obtain ⟨c, hc, v, hv, hvp⟩ := hS u hu
              rw [hph] at hc
              split at hc
              · cases hc
              · exact ⟨c, hc, v, hv, by rw [← hp1]; exact hvp⟩)
            (by
              rw [hp1]
              have hsub : ((List.range s.ports.length).filter fun u => decide (s1.ph u ≠ .ended)).length <
                  ((List.range s.ports.length).filter fun u => decide (s.ph u ≠ .ended)).length := by
                have e1 : ((List.range s.ports.length).filter fun u => decide (s1.ph u ≠ .ended)) =
                    ((List.range s.ports.length).filter fun u => decide (s.ph u ≠ .ended)).filter (fun u => decide (u ≠ t)) := by
                  rw [List.filter_filter]
                  apply List.filter_congr
                  intro u _
                  rw [hph]
                  by_cases e : u = t <;> simp [e]
                rw [e1]
                exact List.length_filter_lt_length_iff_exists.2
                  ⟨t, List.mem_filter.2 ⟨List.mem_range.2 ht, by simpa using hne⟩, by simp⟩
              omega)
          refine ⟨es1 ++ es2, s2, by rw [hpRun_append h1]; exact h3, ?_⟩
          rw [← hp1]; exact h4
    exact main _ s hi nd hn (fun ⟨S, hS⟩ => hno ⟨S, hS.1, hS.2⟩) (Nat.le_refl _)

/-- A receiver that puts a connection's own port into an ERR command stops its thread for ever: nothing
that anybody does afterwards, an abort included, lets it go on, so the sender's report never comes. -/
theorem C114_violated_own_port : ∃ s, hpRun (hpInit [7, 8]) [.err 0 [{ port := 7 }], .next 0] = .ok s ∧
    ∀ es s', hpRun s es = .ok s' → s'.ph 0 ≠ .ended ∧ s'.ph 0 ≠ .run := by
  refine ⟨_, rfl, ?_⟩
  intro es s' h
  have hi : HpInv _ := ((HpInv.init [7, 8]).run (es := [.err 0 [{ port := 7 }], .next 0]) rfl).1
  have hst := HpStuck.run (S := fun t => t = 0) (by decide) hi
    ⟨⟨0, rfl⟩, fun t ht => by subst ht; exact ⟨{ port := 7 }, List.mem_cons_self, 0, rfl, rfl⟩⟩ h
  obtain ⟨c, hc, _⟩ := hst.2 0 rfl
  constructor <;> intro h' <;> rw [h'] at hc <;> cases hc

/-- Two blocks for examples: what two threads sent. -/
private def blk (n : Int) : Source := { name := [], seqId := n, status := NOT_EXISTS, offset := 0, size := 10, fileSize := 10 }

/-- A url that lists a port twice is accepted (WdtTransferRequest.cpp:368-387, WdtBase.cpp:142-160), and its
two threads share one account.  Here thread 1 sent a block first, then thread 0 sent one, and the receiver
says about the connection of thread 0 that one block has arrived: the block of thread 1 counts as
acknowledged, the one that arrived is given back. -/
theorem C114_violated_duplicate :
    (∃ r, parseReq 31 (lit "wdt://h?ports=7,7&recpv=31") = .ok r ∧ r.errorCode = eOK ∧ r.ports = [7, 7]) ∧
    ∃ s, hpRun (hpInit [7, 7]) [.op 1 (.add (blk 1)), .op 0 (.add (blk 0)),
        .op 0 (.localCp { port := 7, numBlocks := 1 })] = .ok s ∧
      (s.hists 7).map (fun h => (h.history, h.numAcked)) = some ([blk 1], 1) := by
  refine ⟨⟨{ protocolVersion := 31, ports := [7, 7], hostName := lit "h" }, by decide +kernel, rfl, rfl⟩, _, rfl, ?_⟩
  decide +kernel

/-- With a port listed twice a thread that was told of a failure goes on while a thread of that connection
still adds blocks. -/
theorem C114_violated_duplicate_wait :
    ∃ s, hpRun (hpInit [7, 7, 8]) [.err 2 [{ port := 7 }], .next 2, .exit 0, .wake 2] = .ok s ∧
      s.ph 1 = .run ∧ s.ph 2 = .proc [] := by
  refine ⟨_, rfl, ?_, ?_⟩ <;> rfl

/-- Ports that are counted up from a start port are all different. -/
theorem C114_counted_ports (start num : Int) (l : List Int) (h : genPortsVector start num = .ok l) : l.Nodup := by
  unfold genPortsVector at h
  split at h
  · cases h
  · cases h
    refine List.Pairwise.map _ (fun a b hab => ?_) List.nodup_range
    intro hc
    exact hab (by omega)

/-! ### Cases that meet the hypotheses -/

/-- Three connections; thread 2 has been told that connections 7 and 8 failed, and of a port that does not
exist.  The wait can end, since threads 0 and 1 wait for nobody. -/
private def told : List HpEv :=
  [.op 0 (.add (blk 0)), .op 1 (.add (blk 1)), .err 2 [{ port := 7, numBlocks := 1 }, { port := 5 }, { port := 8 }], .next 2]

example : ∃ s, hpRun (hpInit [7, 8, 9]) told = .ok s ∧ (∀ t, ∀ c ∈ (s.ph t).todo, CpNonneg c) ∧
    s.ph 2 = .wait { port := 7, numBlocks := 1 } [{ port := 5 }, { port := 8 }] ∧
    (∃ es' s', hpRun s es' = .ok s' ∧ ∀ t, t < 3 → s'.ph t = .ended) := by
  refine ⟨_, rfl, ?_, rfl, [.exit 0, .wake 2, .next 2, .next 2, .exit 1, .wake 2, .next 2, .exit 2], _, rfl, ?_⟩
  · intro t c hc
    have h2 : t = 2 := by
      by_contra h
      simp [hpSetP, h, hpInit, HpPh.todo] at hc
    subst h2
    simp [hpSetP, HpPh.todo] at hc
    rcases hc with rfl | rfl | rfl <;> exact ⟨by decide, by decide⟩
  · intro t ht
    match t, ht with
    | 0, _ => rfl
    | 1, _ => rfl
    | 2, _ => rfl

/-- The wait ends when thread 0 has ended, not before. -/
example : (∃ s, hpRun (hpInit [7, 8, 9]) (told ++ [.exit 0, .wake 2]) = .ok s) ∧
    hpRun (hpInit [7, 8, 9]) (told ++ [.exit 1, .wake 2]) = .blocked := ⟨⟨_, rfl⟩, rfl⟩

/-- The checkpoint went to the account of thread 0: one block confirmed, nothing else touched. -/
example : ∃ s, hpRun (hpInit [7, 8, 9]) told = .ok s ∧
    (s.hists 7).map (fun h => (h.history, h.globalCp, h.numAcked)) = some ([blk 0], true, 1) ∧
    (s.hists 8).map (fun h => (h.history, h.globalCp, h.numAcked)) = some ([blk 1], false, 0) :=
  ⟨_, rfl, by decide +kernel, by decide +kernel⟩

/-- Two threads told to wait for each other: nobody can end. -/
example : ∃ s, hpRun (hpInit [7, 8]) [.err 0 [{ port := 8 }], .err 1 [{ port := 7 }], .next 0, .next 1] = .ok s ∧
    HpStuck s (fun t => t < 2) := by
  refine ⟨_, rfl, ⟨0, by decide⟩, fun t ht => ?_⟩
  match t, ht with
  | 0, _ => exact ⟨{ port := 8 }, List.mem_cons_self, 1, by decide, rfl⟩
  | 1, _ => exact ⟨{ port := 7 }, List.mem_cons_self, 0, by decide, rfl⟩

example : genPortsVector 22356 8 = .ok [22356, 22357, 22358, 22359, 22360, 22361, 22362, 22363] := by decide +kernel

end Wdt
