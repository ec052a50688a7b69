import Verif.Lemmas.Histogram
/-
Lemmas on histograms that many threads fill.
-/
namespace Wdt

/-- The numbers in a histogram that add up: number, sum and squares of the values, and the buckets. -/
def Histo.part (h : Histo) (k : Nat) : Int := (h.ctr.count :: h.ctr.sum :: h.ctr.sumSq :: h.data).getD k 0

/-- A histogram of this scale. -/
structure HistLike (d : Int) (h : Histo) : Prop where
  divider : h.divider = d
  offset : h.offset = 0
  length : h.data.length = 56

theorem part_merge {a b : Histo} (ha : a.data.length = 56) (hb : b.data.length = 56) (k : Nat) :
    (a.merge b).part k = a.part k + b.part k := by
  unfold Histo.part Histo.merge Ctr.merge
  match k with
  | 0 => rfl
  | 1 => rfl
  | 2 => rfl
  | k + 3 =>
    simp only [List.getD_cons_succ]
    exact getD_zipWith _ _ (by rw [ha, hb]) k

theorem merge_length {a b : Histo} (ha : a.data.length = 56) (hb : b.data.length = 56) : (a.merge b).data.length = 56 := by
  show (List.zipWith _ a.data b.data).length = 56
  rw [List.length_zipWith, ha, hb]; rfl

theorem part_replicate (k : Nat) : (List.replicate 56 (0 : Int)).getD k 0 = 0 := by
  by_cases h : k < 56
  · rw [List.getD_eq_getElem?_getD, List.getElem?_replicate, if_pos h]; rfl
  · rw [List.getD_eq_getElem?_getD, List.getElem?_replicate, if_neg h]; rfl

theorem part_reset (h : Histo) (k : Nat) : h.reset.part k = 0 := by
  unfold Histo.part Histo.reset Ctr.reset
  match k with
  | 0 => rfl
  | 1 => rfl
  | 2 => rfl
  | k + 3 => exact part_replicate k

theorem part_new (d o : Int) (k : Nat) : ({ divider := d, offset := o } : Histo).part k = 0 := by
  unfold Histo.part
  match k with
  | 0 => rfl
  | 1 => rfl
  | 2 => rfl
  | k + 3 => exact part_replicate k

theorem histLike_new (d : Int) : HistLike d { divider := d } := ⟨rfl, rfl, rfl⟩

theorem HistLike.reset {d : Int} {h : Histo} (H : HistLike d h) : HistLike d h.reset := ⟨H.divider, H.offset, rfl⟩

/-- What one value adds. -/
def partOf (d v : Int) (k : Nat) : Int :=
  match ({ divider := d } : Histo).record v with
  | .ok h => h.part k
  | .error _ => 0

theorem HistLike.record {d : Int} (hd : 0 < d) {h : Histo} (H : HistLike d h) (v : Int) :
    ∃ h', h.record v = .ok h' ∧ HistLike d h' ∧ ∀ k, h'.part k = h.part k + partOf d v k := by
  obtain ⟨i, e, hi, _⟩ := index_spec h (by rw [H.divider]; exact hd) v
  have e0 : ({ divider := d } : Histo).index v = some i := by
    rw [← e]; unfold Histo.index; rw [H.divider, H.offset]
  refine ⟨{ h with ctr := h.ctr.record v, data := h.data.modify i (· + 1) }, by unfold Histo.record; rw [e],
    ⟨H.divider, H.offset, by simp [H.length]⟩, fun k => ?_⟩
  unfold partOf Histo.record
  rw [e0]
  unfold Histo.part Ctr.record
  match k with
  | 0 => simp
  | 1 => simp
  | 2 => simp
  | k + 3 =>
    simp only [List.getD_cons_succ]
    rw [getD_modify _ _ _ (by rw [H.length]; exact hi), getD_modify _ _ _ (by show i < 56; exact hi)]
    rw [show (List.replicate (histLast + 1) (0 : Int)).getD k 0 = 0 from part_replicate k]
    omega

theorem HistLike.recordAll {d : Int} (hd : 0 < d) (vs : List Int) :
    ∀ {h : Histo}, HistLike d h → ∃ h', h.recordAll vs = .ok h' ∧ HistLike d h' ∧
      ∀ k, h'.part k = h.part k + (vs.map fun v => partOf d v k).sum := by
  induction vs with
  | nil => intro h H; exact ⟨h, rfl, H, fun k => by simp⟩
  | cons v vs ih =>
    intro h H
    obtain ⟨h1, e1, H1, p1⟩ := H.record hd v
    obtain ⟨h2, e2, H2, p2⟩ := ih H1
    refine ⟨h2, by rw [Histo.recordAll, e1]; exact e2, H2, fun k => ?_⟩
    rw [p2, p1, List.map_cons, List.sum_cons]; omega

/-- What is in the histograms of a thread. -/
def heldPart (k : Nat) : Option Hold2 → Int
  | none => 0
  | some x => x.1.part k + x.2.part k

/-- What the reader has merged and not yet reset. -/
def TlHist.pendPart (s : TlHist) (k : Nat) : Int :=
  match s.pending with
  | none => 0
  | some t =>
    match s.held[t]? with
    | some (some x) => (x.get (!s.active)).part k
    | _ => 0

/-- Nobody is going to record in a histogram that is not active. -/
def TlHist.quiet (s : TlHist) : Prop := ∀ (t : Nat) (i : Bool), s.inside[t]? = some (some i) → i = s.active

/-- The values that are recorded. -/
def TlEvent.value? : TlEvent → Option Int
  | .store _ v => some v
  | _ => none

/-- The invariant: `ds` was delivered, `vs` recorded. -/
structure TlInv (s : TlHist) (ds : List Histo) (vs : List Int) : Prop where
  held : ∀ (t : Nat) (x : Hold2), s.held[t]? = some (some x) → HistLike s.scale x.1 ∧ HistLike s.scale x.2
  agg : s.aggregated.data.length = 56
  pend : s.pending.isSome → s.quiet
  sum : ∀ k, (ds.map fun h => h.part k).sum + s.aggregated.part k + (s.held.map (heldPart k)).sum - s.pendPart k =
    (vs.map fun v => partOf s.scale v k).sum

theorem tlSum_set {α : Type} (f : α → Int) (a b : α) : ∀ (l : List α) (t : Nat), l[t]? = some b →
    ((l.set t a).map f).sum = (l.map f).sum + f a - f b
  | [], _, h => by simp at h
  | x :: l, 0, h => by simp at h; subst h; simp; omega
  | x :: l, t + 1, h => by
    simp only [List.getElem?_cons_succ] at h
    have := tlSum_set f a b l t h
    simp only [List.set_cons_succ, List.map_cons, List.sum_cons, this]; omega

theorem get_set (x : Hold2) (i j : Bool) (h : Histo) : (x.set i h).get j = if i = j then h else x.get j := by
  cases i <;> cases j <;> rfl

theorem heldPart_set (k : Nat) (x : Hold2) (i : Bool) (h : Histo) :
    heldPart k (some (x.set i h)) = heldPart k (some x) + h.part k - (x.get i).part k := by
  cases i <;> simp only [heldPart, Hold2.set, Hold2.get] <;> simp <;> omega

theorem getElem?_set_some {α : Type} {l : List α} {t t' : Nat} {a b : α} (h : (l.set t a)[t']? = some b) :
    (t = t' ∧ b = a) ∨ (t ≠ t' ∧ l[t']? = some b) := by
  rw [List.getElem?_set] at h
  by_cases e : t = t'
  · rw [if_pos e] at h
    split at h
    · simp at h; exact .inl ⟨e, h.symm⟩
    · simp at h
  · rw [if_neg e] at h; exact .inr ⟨e, h⟩

theorem histLike_get {d : Int} {x : Hold2} (h : HistLike d x.1 ∧ HistLike d x.2) (i : Bool) : HistLike d (x.get i) := by
  cases i
  · exact h.1
  · exact h.2

theorem histLike_set {d : Int} {x : Hold2} (h : HistLike d x.1 ∧ HistLike d x.2) (i : Bool) {y : Histo} (hy : HistLike d y) :
    HistLike d (x.set i y).1 ∧ HistLike d (x.set i y).2 := by
  cases i
  · exact ⟨hy, h.2⟩
  · exact ⟨h.1, hy⟩

theorem TlInv.step {s : TlHist} (hd : 0 < s.scale) {ds : List Histo} {vs : List Int} (I : TlInv s ds vs) {e : TlEvent}
    (hq : ∀ t, e = .take t → s.quiet) {r : Except Fault (TlHist × Option Histo)} (h : s.step e = some r) :
    ∃ s' d, r = .ok (s', d) ∧ s'.scale = s.scale ∧ TlInv s' (ds ++ d.toList) (vs ++ e.value?.toList) := by
  cases e with
  | enter t =>
    simp only [TlHist.step] at h
    split at h
    · rename_i x hx hi
      simp only [Option.some.injEq] at h
      subst h
      refine ⟨_, _, rfl, rfl, I.held, I.agg, fun hp => ?_, ?_⟩
      · intro t' i' hh
        rcases getElem?_set_some hh with ⟨_, h2⟩ | ⟨_, h2⟩
        · simpa using h2
        · exact I.pend hp t' i' h2
      · intro k
        have := I.sum k
        simpa [TlHist.pendPart, TlEvent.value?] using this
    · rename_i hx hi
      by_cases hp : s.pending.isSome
      · rw [if_pos hp] at h; simp at h
      · rw [if_neg hp] at h
        simp only [Option.some.injEq] at h
        subst h
        refine ⟨_, _, rfl, rfl, ?_, I.agg, fun hp' => absurd hp' hp, ?_⟩
        · intro t' x' hh
          rcases getElem?_set_some hh with ⟨_, h2⟩ | ⟨_, h2⟩
          · simp only [Option.some.injEq] at h2
            subst h2
            exact ⟨histLike_new _, histLike_new _⟩
          · exact I.held t' x' h2
        · intro k
          have := I.sum k
          have hn : s.pending = none := by simpa using hp
          simp only [TlHist.pendPart, hn, TlEvent.value?, Option.toList_none, List.append_nil] at this ⊢
          rw [tlSum_set _ _ _ _ _ hx]
          simp only [heldPart, part_new]
          omega
    · simp at h
  | store t v =>
    simp only [TlHist.step] at h
    split at h
    · rename_i x i hx hi
      obtain ⟨y, ey, hy, py⟩ := (histLike_get (I.held t x hx) i).record hd v
      rw [ey] at h
      simp only [Option.some.injEq] at h
      subst h
      refine ⟨_, _, rfl, rfl, ?_, I.agg, fun hp => ?_, ?_⟩
      · intro t' x' hh
        rcases getElem?_set_some hh with ⟨_, h2⟩ | ⟨_, h2⟩
        · simp only [Option.some.injEq] at h2
          subst h2
          exact histLike_set (I.held t x hx) i hy
        · exact I.held t' x' h2
      · intro t' i' hh
        rcases getElem?_set_some hh with ⟨_, h2⟩ | ⟨_, h2⟩
        · simp at h2
        · exact I.pend hp t' i' h2
      · intro k
        have hs := I.sum k
        have hpend : TlHist.pendPart { s with held := s.held.set t (some (x.set i y)), inside := s.inside.set t none } k = s.pendPart k := by
          unfold TlHist.pendPart
          cases hp : s.pending with
          | none => rfl
          | some t' =>
            have hia : i = s.active := I.pend (by rw [hp]; rfl) t i hi
            simp only
            by_cases htt : t = t'
            · subst htt
              rw [List.getElem?_set, if_pos rfl]
              have hl : t < s.held.length := (List.getElem?_eq_some_iff.1 hx).1
              rw [if_pos hl, hx]
              simp only
              rw [get_set, if_neg (by rw [hia]; simp)]
            · rw [List.getElem?_set, if_neg htt]
        simp only [TlEvent.value?, Option.toList_none, List.append_nil, Option.toList_some, List.map_append, List.sum_append, List.map_cons, List.map_nil, List.sum_cons, List.sum_nil]
        rw [hpend, tlSum_set _ _ _ _ _ hx, heldPart_set, py]
        omega
    · simp at h
  | swap =>
    simp only [TlHist.step] at h
    by_cases hp : s.pending.isSome
    · rw [if_pos hp] at h; simp at h
    · rw [if_neg hp] at h
      simp only [Option.some.injEq] at h
      subst h
      refine ⟨_, _, rfl, rfl, I.held, I.agg, fun hp' => absurd hp' hp, fun k => ?_⟩
      have := I.sum k
      have hn : s.pending = none := by simpa using hp
      simpa [TlHist.pendPart, hn, TlEvent.value?] using this
  | take t =>
    simp only [TlHist.step] at h
    split at h
    · rename_i x hx
      by_cases hp : s.pending.isSome
      · rw [if_pos hp] at h; simp at h
      · rw [if_neg hp] at h
        simp only [Option.some.injEq] at h
        subst h
        have hl := (histLike_get (I.held t x hx) (!s.active)).length
        refine ⟨_, _, rfl, rfl, I.held, merge_length I.agg hl, fun _ => hq t rfl, fun k => ?_⟩
        have := I.sum k
        have hn : s.pending = none := by simpa using hp
        simp only [TlHist.pendPart, hn, hx, TlEvent.value?, Option.toList_none, List.append_nil] at this ⊢
        rw [part_merge I.agg hl]
        omega
    · simp at h
  | clear t =>
    simp only [TlHist.step] at h
    split at h
    · rename_i x hx
      by_cases hp : s.pending = some t
      · rw [if_pos hp] at h
        simp only [Option.some.injEq] at h
        subst h
        refine ⟨_, _, rfl, rfl, ?_, I.agg, fun hp' => by simp at hp', fun k => ?_⟩
        · intro t' x' hh
          rcases getElem?_set_some hh with ⟨_, h2⟩ | ⟨_, h2⟩
          · simp only [Option.some.injEq] at h2
            subst h2
            exact histLike_set (I.held t x hx) _ (histLike_get (I.held t x hx) _).reset
          · exact I.held t' x' h2
        · have := I.sum k
          simp only [TlHist.pendPart, hp, hx, TlEvent.value?, Option.toList_none, List.append_nil] at this ⊢
          rw [tlSum_set _ _ _ _ _ hx, heldPart_set, part_reset]
          omega
      · rw [if_neg hp] at h; simp at h
    · simp at h
  | deliver scale =>
    simp only [TlHist.step] at h
    by_cases hp : s.pending.isSome
    · rw [if_pos hp] at h; simp at h
    · rw [if_neg hp] at h
      simp only [Option.some.injEq] at h
      subst h
      refine ⟨_, _, rfl, rfl, I.held, rfl, fun hp' => absurd hp' hp, fun k => ?_⟩
      have := I.sum k
      have hn : s.pending = none := by simpa using hp
      simp only [TlHist.pendPart, hn, TlEvent.value?, Option.toList_none, List.append_nil, Option.toList_some, List.map_append, List.sum_append, List.map_cons, List.map_nil, List.sum_cons, List.sum_nil] at this ⊢
      rw [part_reset, part_merge (by rfl) I.agg, part_new]
      omega
  | exit t =>
    simp only [TlHist.step] at h
    split at h
    · rename_i x hx hi
      by_cases hp : s.pending.isSome
      · rw [if_pos hp] at h; simp at h
      · rw [if_neg hp] at h
        simp only [Option.some.injEq] at h
        subst h
        obtain ⟨l1, l2⟩ := I.held t x hx
        refine ⟨_, _, rfl, rfl, ?_, merge_length (merge_length I.agg l1.length) l2.length, fun hp' => absurd hp' hp, fun k => ?_⟩
        · intro t' x' hh
          rcases getElem?_set_some hh with ⟨_, h2⟩ | ⟨_, h2⟩
          · simp at h2
          · exact I.held t' x' h2
        · have := I.sum k
          have hn : s.pending = none := by simpa using hp
          simp only [TlHist.pendPart, hn, TlEvent.value?, Option.toList_none, List.append_nil] at this ⊢
          rw [tlSum_set _ _ _ _ _ hx, part_merge (merge_length I.agg l1.length) l2.length, part_merge I.agg l1.length]
          simp only [heldPart]
          omega
    · simp at h

theorem tlInv_start (scale : Int) (n : Nat) : TlInv (.start scale n) [] [] := by
  refine ⟨?_, rfl, by intro h; simp [TlHist.start] at h, fun k => ?_⟩
  · intro t x h
    simp only [TlHist.start, List.getElem?_replicate] at h
    split at h <;> simp at h
  · have h1 : (TlHist.start scale n).aggregated.part k = 0 := part_new 1 0 k
    have h2 : ∀ n, ((List.replicate n (none : Option Hold2)).map (heldPart k)).sum = 0 := by
      intro n
      induction n with
      | zero => rfl
      | succ n ih => rw [List.replicate_succ, List.map_cons, List.sum_cons, ih]; rfl
    rw [h1]
    show (0 : Int) + 0 + ((List.replicate n (none : Option Hold2)).map (heldPart k)).sum - 0 = 0
    rw [h2]; rfl

end Wdt
