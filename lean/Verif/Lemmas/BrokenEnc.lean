import Verif.Lemmas.BrokenRun
import Verif.Model.BrokenEnc
/-
Lemmas for C105: what a broken encrypted connection does to the receiver's checkpoint.
-/
namespace Wdt

/-- The configuration in which only whole sources count if that is so because of checksums or of
tags. -/
def BCfg.strict (c : BCfg) (tagged : Bool) : BCfg :=
  { c with st := { c.st with enableChecksum := c.st.enableChecksum || tagged } }

theorem foldl_whole : ∀ (obs : List RObs) (cp : RcvCp), (∀ b, RObs.verified b ∉ obs) →
    (obs.foldl (RcvCp.step false) cp).numBlocks = cp.numBlocks + (obs.filter RObs.whole).length := by
  intro obs
  induction obs with
  | nil => intro cp _; rfl
  | cons o obs ih =>
    intro cp h
    have h' : ∀ b, RObs.verified b ∉ obs := fun b hb => h b (List.mem_cons_of_mem _ hb)
    rw [List.foldl_cons, ih _ h']
    cases o with
    | block b d w =>
      cases w
      · rfl
      · rw [List.filter_cons_of_pos rfl, List.length_cons]
        show cp.numBlocks + 1 + _ = _
        omega
    | verified b => exact absurd List.mem_cons_self (h b)
    | _ => rfl

theorem cut_no_verified {ver : Int} : ∀ {items : List SItem} {obs : List RObs}, ItemsCut ver false items obs →
    ∀ b, RObs.verified b ∉ obs := by
  intro items obs h
  generalize hf : false = footer at h
  induction h with
  | stop => intro b; simp
  | part => intro b; simp
  | unchecked _ hu => subst hf; cases hu
  | @next items obs i h ih =>
    intro b hb
    rcases List.mem_append.1 hb with hb | hb
    · subst hf
      cases i <;> simp [SItem.obs] at hb
    · exact ih b hb

theorem no_block_writes (obs : List RObs) (h : obs.any RObs.isBlock = false) :
    obs.filterMap RObs.write = [] ∧ (obs.filter RObs.whole) = [] := by
  induction obs with
  | nil => exact ⟨rfl, rfl⟩
  | cons o obs ih =>
    rw [List.any_cons, Bool.or_eq_false_iff] at h
    obtain ⟨h1, h2⟩ := ih h.2
    cases o with
    | block b d w => cases h.1
    | _ => exact ⟨h1, h2⟩

/-- The effect of a broken connection with or without tags. -/
theorem cut_behind (c : BCfg) (tagged : Bool) (v : Nat) (items : List BItem) (obs : List RObs) (cp cp' : RcvCp)
    (h : ItemsCut c.ver c.st.enableChecksum (items.map (BItem.sent c.src)) obs)
    (hb : RcvCp.behind tagged c.st.enableChecksum v cp obs = some cp') :
    ∃ done pend, CutEffect (c.strict tagged) (c.strict tagged).st.enableChecksum cp cp' (items.filterMap BItem.source)
      (obs.filterMap RObs.write) done pend := by
  unfold RcvCp.behind at hb
  by_cases ht : (tagged && !c.st.enableChecksum) = true
  · rw [if_pos ht] at hb
    obtain ⟨htag, hf⟩ := Bool.and_eq_true_iff.1 ht
    have hf : c.st.enableChecksum = false := by simpa using hf
    have hst : (c.strict tagged).st.enableChecksum = true := by
      show (c.st.enableChecksum || tagged) = true
      rw [htag]; simp
    rw [hf] at h
    by_cases hv : (obs.filter RObs.whole).length < v
    · rw [if_pos hv] at hb; cases hb
    rw [if_neg hv] at hb
    cases hb
    obtain ⟨done, pend, e1, e2, e3⟩ := cut_effect c false items obs cp h
    have hw := foldl_whole obs cp (cut_no_verified h)
    have hvl : v ≤ done.length := by omega
    by_cases hany : obs.any RObs.isBlock = true
    · refine ⟨done.take v, done.drop v ++ pend, ?_, ?_, .inr (.inr ?_)⟩
      · rw [← List.append_assoc, List.take_append_drop]; exact e1
      · show cp.numBlocks + v = _
        rw [List.length_take, Nat.min_eq_left hvl]
      · have hsplit : done.map (wholeWrite c) = (done.take v).map (wholeWrite c) ++ (done.drop v).map (wholeWrite c) := by
          rw [← List.map_append, List.take_append_drop]
        have hlate : ∀ e ∈ (done.drop v).map (wholeWrite c), ∃ x ∈ done.drop v ++ pend, ∃ m,
            e = (x.details.carried c.ver, (x.data c.src).take m) := by
          intro e he
          obtain ⟨x, hx, rfl⟩ := List.mem_map.1 he
          exact ⟨x, List.mem_append_left _ hx, (x.data c.src).length, by rw [List.take_length]; rfl⟩
        have hnone : (if obs.any RObs.isBlock then none else cp.last) = none := if_pos hany
        rcases e3 with ⟨a, _⟩ | ⟨x, tl, m, _, hx, _, a, _⟩ | ⟨_, f, _⟩
        · exact ⟨(done.drop v).map (wholeWrite c), hst, by rw [a, hsplit]; rfl, hlate, hnone⟩
        · refine ⟨(done.drop v).map (wholeWrite c) ++ [(x.details.carried c.ver, (x.data c.src).take m)], hst, ?_, ?_, hnone⟩
          · rw [a, hsplit, List.append_assoc]; rfl
          · intro e he
            rcases List.mem_append.1 he with he | he
            · exact hlate e he
            · rw [List.mem_singleton] at he
              exact ⟨x, List.mem_append_right _ (by rw [hx]; exact List.mem_cons_self), m, he⟩
        · cases f
    · have hany : obs.any RObs.isBlock = false := by simpa using hany
      obtain ⟨w1, w2⟩ := no_block_writes obs hany
      rw [w2] at hw hv
      have hd : done = [] := List.length_eq_zero_iff.1 (by simp only [List.length_nil] at hw; omega)
      have hv0 : v = 0 := by simp only [List.length_nil] at hv; omega
      subst hd
      refine ⟨[], pend, e1, ?_, .inl ⟨w1, ?_⟩⟩
      · show cp.numBlocks + v = _
        rw [hv0]; rfl
      · show (if obs.any RObs.isBlock then none else cp.last) = _
        rw [hany]; rfl
  · rw [if_neg ht] at hb
    cases hb
    have hst : (c.strict tagged).st.enableChecksum = c.st.enableChecksum := by
      show (c.st.enableChecksum || tagged) = _
      cases hf : c.st.enableChecksum
      · rw [hf] at ht
        cases tagged
        · rfl
        · exact absurd rfl ht
      · rfl
    rw [hst]
    obtain ⟨done, pend, e1, e2, e3⟩ := cut_effect c c.st.enableChecksum items obs cp h
    exact ⟨done, pend, e1, e2, e3⟩

/-- The effect of a connection that does not break. -/
theorem full_behind (c : BCfg) (tagged : Bool) (items : List BItem) (cp : RcvCp) :
    ∃ cp', RcvCp.behind tagged c.st.enableChecksum
        ((.settings (c.st.carried c.ver) :: (items.map (BItem.sent c.src)).flatMap (SItem.obs c.ver c.st.enableChecksum)).filter RObs.whole).length
        cp (.settings (c.st.carried c.ver) :: (items.map (BItem.sent c.src)).flatMap (SItem.obs c.ver c.st.enableChecksum)) = some cp' ∧
      cp'.numBlocks = cp.numBlocks + (items.filterMap BItem.source).length := by
  unfold RcvCp.behind
  by_cases ht : (tagged && !c.st.enableChecksum) = true
  · rw [if_pos ht, if_neg (Nat.lt_irrefl _)]
    obtain ⟨_, hf⟩ := Bool.and_eq_true_iff.1 ht
    have hf : c.st.enableChecksum = false := by simpa using hf
    refine ⟨_, rfl, ?_⟩
    show cp.numBlocks + _ = _
    congr 1
    rw [hf, List.filter_cons_of_neg (by simp [RObs.whole])]
    induction items with
    | nil => rfl
    | cons i items ih =>
      cases i with
      | size t => exact ih
      | file st x =>
        show ((RObs.block _ _ true :: _).filter RObs.whole).length = _
        rw [List.filter_cons_of_pos rfl, List.length_cons]
        show _ = (x :: items.filterMap BItem.source).length
        rw [List.length_cons, ← ih]
        rfl
  · rw [if_neg ht]
    exact ⟨_, rfl, (full_effect c c.st.enableChecksum items cp).1⟩

end Wdt
