import Verif.Model.Uri
/-
Lemmas about escaping, numbers and parameter maps.
-/
namespace Wdt

/-- A statement about a byte needs 256 checks. -/
theorem forall_byte {P : UInt8 → Prop} [DecidablePred P] (h : ∀ n < 256, P (UInt8.ofNat n)) (c : UInt8) : P c := by
  have := h c.toNat c.toNat_lt
  simpa using this

theorem byte_hex (c : UInt8) : ∃ h l m n, toHex (c >>> 4) = .ok h ∧ toHex (c &&& 0xf) = .ok l ∧
    fromHex h = some m ∧ fromHex l = some n ∧ (m <<< 4 ||| n) = c ∧ uriPlain h = true ∧ uriPlain l = true ∧
    h ≠ 58 ∧ l ≠ 58 := by
  have key : ∀ c : UInt8, (match toHex (c >>> 4), toHex (c &&& 0xf) with
      | .ok h, .ok l => match fromHex h, fromHex l with
        | some m, some n => (m <<< 4 ||| n) == c && uriPlain h && uriPlain l && h != 58 && l != 58
        | _, _ => false
      | _, _ => false) = true := by
    intro c
    exact forall_byte (P := fun c => (match toHex (c >>> 4), toHex (c &&& 0xf) with
      | .ok h, .ok l => match fromHex h, fromHex l with
        | some m, some n => (m <<< 4 ||| n) == c && uriPlain h && uriPlain l && h != 58 && l != 58
        | _, _ => false
      | _, _ => false) = true) (by decide +kernel) c
  have := key c
  split at this
  · rename_i h l hh hl
    split at this
    · rename_i m n hm hn
      simp only [Bool.and_eq_true, beq_iff_eq, bne_iff_ne] at this
      exact ⟨h, l, m, n, hh, hl, hm, hn, this.1.1.1.1, this.1.1.1.2, this.1.1.2, this.1.2, this.2⟩
    · simp at this
  · simp at this

theorem escape_spec (s : Bytes) : ∃ e, uriEscape s = .ok e ∧ (∀ t, uriUnescape (e ++ t) =
    (s ++ (uriUnescape t).1, (uriUnescape t).2)) ∧ (∀ c ∈ e, uriPlain c = true ∨ c = 37) ∧ (s ≠ [] → e ≠ []) := by
  induction s with
  | nil => exact ⟨[], rfl, by simp, by simp, by simp⟩
  | cons c cs ih =>
    obtain ⟨e, h1, h2, h3, _⟩ := ih
    unfold uriEscape
    rw [h1]
    simp only [bind, Except.bind]
    by_cases hp : uriPlain c = true
    · rw [if_pos hp]
      refine ⟨_, rfl, ?_, ?_, by simp⟩
      · intro t
        have : c ≠ 37 := by rintro rfl; revert hp; decide
        rw [List.cons_append]
        conv => lhs; unfold uriUnescape
        rw [if_pos this, h2]
        rfl
      · intro x hx
        rcases List.mem_cons.1 hx with rfl | hx
        · exact Or.inl hp
        · exact h3 x hx
    · rw [if_neg hp]
      obtain ⟨h, l, m, n, q1, q2, q3, q4, q5, q6, q7, _⟩ := byte_hex c
      rw [q1]
      simp only
      rw [q2]
      refine ⟨_, rfl, ?_, ?_, by simp⟩
      · intro t
        simp only [List.cons_append]
        conv => lhs; unfold uriUnescape
        rw [if_neg (by simp)]
        simp only
        rw [q3, q4]
        simp only
        rw [h2, q5]
      · intro x hx
        simp only [List.mem_cons] at hx
        rcases hx with rfl | rfl | rfl | hx
        · exact Or.inr rfl
        · exact Or.inl q6
        · exact Or.inl q7
        · exact h3 x hx

/-! ### Numbers -/

theorem digitsVal_snoc (s : Bytes) (d : UInt8) : digitsVal (s ++ [d]) = digitsVal s * 10 + (d.toNat - 48) := by
  simp [digitsVal]

theorem natStrAux_spec : ∀ (f n : Nat), n < 10 ^ f → 0 < f →
    digitsVal (natStrAux f n) = n ∧ (natStrAux f n).all isDigit = true ∧ natStrAux f n ≠ [] := by
  intro f
  induction f with
  | zero => intro n _ h; omega
  | succ f ih =>
    intro n hn _
    have hd : ∀ k < 10, isDigit (UInt8.ofNat (48 + k)) = true ∧ (UInt8.ofNat (48 + k)).toNat - 48 = k := by decide
    have hm := hd (n % 10) (Nat.mod_lt _ (by omega))
    unfold natStrAux
    rw [digitsVal_snoc, hm.2]
    by_cases h : n / 10 = 0
    · rw [if_pos h]
      refine ⟨by simp [digitsVal]; omega, by rw [List.nil_append, List.all_cons, hm.1]; rfl, by simp⟩
    · rw [if_neg h]
      have hf : 0 < f := by
        rcases Nat.eq_zero_or_pos f with rfl | hf
        · simp at hn; omega
        · exact hf
      obtain ⟨a, b, _⟩ := ih (n / 10) (by rw [Nat.pow_succ] at hn; omega) hf
      refine ⟨by rw [a]; omega, ?_, by simp⟩
      rw [List.all_append, b, List.all_cons, hm.1]
      rfl

theorem digit_facts (c : UInt8) (h : isDigit c = true) :
    isWs c = false ∧ c ≠ 45 ∧ c ≠ 43 ∧ c ≠ 44 ∧ c ≠ 63 ∧ c ≠ 0 ∧ c ≠ 58 ∧ c ≠ 38 := by
  revert h
  exact forall_byte (P := fun c => isDigit c = true → isWs c = false ∧ c ≠ 45 ∧ c ≠ 43 ∧ c ≠ 44 ∧ c ≠ 63 ∧ c ≠ 0 ∧
    c ≠ 58 ∧ c ≠ 38) (by decide +kernel) c

theorem takeWhile_all {p : UInt8 → Bool} {s : Bytes} (h : ∀ c ∈ s, p c = true) : s.takeWhile p = s := by
  induction s with
  | nil => rfl
  | cons c cs ih =>
    rw [List.takeWhile_cons, if_pos (h c (by simp)), ih fun x hx => h x (by simp [hx])]

theorem dropWhile_all {p : UInt8 → Bool} {s : Bytes} (h : ∀ c ∈ s, p c = true) : s.dropWhile p = [] := by
  induction s with
  | nil => rfl
  | cons c cs ih =>
    rw [List.dropWhile_cons, if_pos (h c (by simp)), ih fun x hx => h x (by simp [hx])]

/-- A sign and digits, as `intStr` writes them. -/
theorem strInt_intStr (lo hi i : Int) (h1 : lo ≤ i) (h2 : i ≤ hi) (hb : i.natAbs < 10 ^ 20) :
    strInt lo hi (intStr i) = some i := by
  obtain ⟨a, b, c⟩ := natStrAux_spec 20 i.natAbs hb (by omega)
  have b' : ∀ x ∈ natStrAux 20 i.natAbs, isDigit x = true := by simpa using b
  unfold intStr strInt
  generalize natStrAux 20 i.natAbs = d at a b b' c
  by_cases hneg : i < 0
  · rw [if_pos hneg]
    have e1 : (45 :: d).dropWhile isWs = 45 :: d := by
      rw [List.dropWhile_cons]
      rw [if_neg (by decide)]
    rw [e1]
    have e2 : intSign (45 :: d) = (true, d) := rfl
    rw [e2]
    simp only [takeWhile_all b', dropWhile_all b', a]
    simp only [c, List.all_nil, not_true_eq_false, or_self, if_false, if_true]
    have e : -(i.natAbs : Int) = i := by omega
    rw [e, if_pos ⟨h1, h2⟩]
  · rw [if_neg hneg]
    obtain ⟨x, xs, rfl⟩ := List.exists_cons_of_ne_nil c
    obtain ⟨f1, f2, f3, _⟩ := digit_facts x (b' x (by simp))
    have e1 : (x :: xs).dropWhile isWs = x :: xs := by
      rw [List.dropWhile_cons]
      rw [if_neg (by simp [f1])]
    rw [e1]
    have e2 : intSign (x :: xs) = (false, x :: xs) := by
      simp only [intSign]
      rw [if_neg f2, if_neg f3]
    rw [e2]
    simp only [takeWhile_all b', dropWhile_all b', a]
    simp only [List.all_nil, not_true_eq_false, or_self, if_false, reduceCtorEq, Bool.false_eq_true]
    have e : (i.natAbs : Int) = i := by omega
    rw [e, if_pos ⟨h1, h2⟩]

theorem intStr_chars (i : Int) (hb : i.natAbs < 10 ^ 20) : intStr i ≠ [] ∧
    ∀ c ∈ intStr i, isDigit c = true ∨ c = 45 := by
  obtain ⟨a, b, c⟩ := natStrAux_spec 20 i.natAbs hb (by omega)
  have b' : ∀ x ∈ natStrAux 20 i.natAbs, isDigit x = true := by simpa using b
  unfold intStr
  split
  · refine ⟨by simp, ?_⟩
    intro x hx
    rcases List.mem_cons.1 hx with rfl | hx
    · exact Or.inr rfl
    · exact Or.inl (b' x hx)
  · exact ⟨c, fun x hx => Or.inl (b' x hx)⟩

/-! ### Splitting -/

theorem takeWhile_stop {p : UInt8 → Bool} {s t : Bytes} {d : UInt8} (h : ∀ c ∈ s, p c = true) (hd : p d = false) :
    (s ++ d :: t).takeWhile p = s ∧ (s ++ d :: t).dropWhile p = d :: t := by
  induction s with
  | nil => simp [hd]
  | cons c cs ih =>
    obtain ⟨i1, i2⟩ := ih fun x hx => h x (by simp [hx])
    simp [h c (by simp), i1, i2]

theorem splitStep_mid {d : UInt8} {s t : Bytes} (h : d ∉ s) : splitStep d (s ++ d :: t) = (s, t) := by
  have h' : ∀ c ∈ s, (c != d) = true := fun c hc => by
    simp only [bne_iff_ne]; rintro rfl; exact h hc
  obtain ⟨a, b⟩ := takeWhile_stop (p := (· != d)) (t := t) h' (d := d) (by simp)
  simp only [splitStep, a, b, List.drop_one, List.tail_cons]

theorem splitStep_last {d : UInt8} {s : Bytes} (h : d ∉ s) : splitStep d s = (s, []) := by
  have h' : ∀ c ∈ s, (c != d) = true := fun c hc => by
    simp only [bne_iff_ne]; rintro rfl; exact h hc
  simp only [splitStep, takeWhile_all h', dropWhile_all h', List.drop_nil]

theorem cAssign_prefix {a b : Bytes} (h : 0 ∉ a) : cAssign (a ++ b) a.length = a := by
  unfold cAssign
  induction a with
  | nil => simp
  | cons c cs ih =>
    have : (c != 0) = true := by
      simp only [bne_iff_ne]; rintro rfl; exact h (by simp)
    simp only [List.cons_append, List.takeWhile_cons, this, if_true, List.length_cons, List.take_succ_cons]
    rw [ih (by intro hx; exact h (by simp [hx]))]

/-! ### Parameter maps -/

theorem bytesLt_irrefl : ∀ a : Bytes, bytesLt a a = false
  | [] => rfl
  | x :: xs => by simp [bytesLt, bytesLt_irrefl xs]

theorem bytesLt_asymm : ∀ a b : Bytes, bytesLt a b = true → bytesLt b a = false
  | [], [], h => by simp [bytesLt] at h
  | [], _ :: _, _ => rfl
  | _ :: _, [], h => by simp [bytesLt] at h
  | x :: xs, y :: ys, h => by
    simp only [bytesLt, Bool.or_eq_true, decide_eq_true_eq, Bool.and_eq_true, beq_iff_eq] at h
    simp only [bytesLt, Bool.or_eq_false_iff, decide_eq_false_iff_not, Bool.and_eq_false_iff, beq_eq_false_iff_ne]
    rcases h with h | ⟨rfl, h⟩
    · refine ⟨UInt8.lt_asymm h, Or.inl ?_⟩
      rintro rfl
      exact absurd h (UInt8.lt_irrefl _)
    · exact ⟨UInt8.lt_irrefl _, Or.inr (bytesLt_asymm xs ys h)⟩

theorem bytesLt_trans : ∀ a b c : Bytes, bytesLt a b = true → bytesLt b c = true → bytesLt a c = true
  | _, [], _, h, _ => by cases ‹Bytes› <;> simp [bytesLt] at h
  | _, _ :: _, [], _, h => by simp [bytesLt] at h
  | [], _ :: _, _ :: _, _, _ => rfl
  | x :: xs, y :: ys, z :: zs, h, h' => by
    simp only [bytesLt, Bool.or_eq_true, decide_eq_true_eq, Bool.and_eq_true, beq_iff_eq] at h h' ⊢
    rcases h with h | ⟨rfl, h⟩
    · rcases h' with h' | ⟨rfl, h'⟩
      · exact Or.inl (UInt8.lt_trans h h')
      · exact Or.inl h
    · rcases h' with h' | ⟨rfl, h'⟩
      · exact Or.inl h'
      · exact Or.inr ⟨rfl, bytesLt_trans xs ys zs h h'⟩

theorem bytesLt_total : ∀ a b : Bytes, a ≠ b → bytesLt a b = false → bytesLt b a = true
  | [], [], h, _ => absurd rfl h
  | [], _ :: _, _, h => by simp [bytesLt] at h
  | _ :: _, [], _, _ => rfl
  | x :: xs, y :: ys, hne, h => by
    simp only [bytesLt, Bool.or_eq_false_iff, decide_eq_false_iff_not, Bool.and_eq_false_iff, beq_eq_false_iff_ne] at h
    simp only [bytesLt, Bool.or_eq_true, decide_eq_true_eq, Bool.and_eq_true, beq_iff_eq]
    by_cases e : x = y
    · subst e
      refine Or.inr ⟨rfl, bytesLt_total xs ys (fun e => hne (by rw [e])) ?_⟩
      rcases h.2 with h | h
      · exact absurd rfl h
      · exact h
    · exact Or.inl (UInt8.lt_of_le_of_ne (UInt8.not_lt.1 h.1) (Ne.symm e))

/-- The keys go up. -/
def ParamsOK (m : Params) : Prop := m.Pairwise fun a b => bytesLt a.1 b.1 = true

theorem Params.set_keys (k v : Bytes) : ∀ (m : Params) (x : Bytes × Bytes), x ∈ m.set k v → x.1 = k ∧ x.2 = v ∨ x ∈ m
  | [], x, h => by simp [Params.set] at h; subst h; simp
  | (k', v') :: t, x, h => by
    unfold Params.set at h
    split at h
    · rcases List.mem_cons.1 h with rfl | h
      · simp
      · exact Or.inr (by simp [h])
    · split at h
      · rcases List.mem_cons.1 h with rfl | h
        · simp
        · exact Or.inr h
      · rcases List.mem_cons.1 h with rfl | h
        · exact Or.inr (by simp)
        · rcases Params.set_keys k v t x h with h | h
          · exact Or.inl h
          · exact Or.inr (by simp [h])

theorem Params.set_ok (k v : Bytes) : ∀ (m : Params), ParamsOK m → ParamsOK (m.set k v)
  | [], _ => by simp [Params.set, ParamsOK]
  | (k', v') :: t, h => by
    unfold Params.set
    unfold ParamsOK at h
    rw [List.pairwise_cons] at h
    split
    · rename_i e
      subst e
      exact List.pairwise_cons.2 ⟨h.1, h.2⟩
    · rename_i hne
      split
      · rename_i hlt
        refine List.pairwise_cons.2 ⟨?_, List.pairwise_cons.2 h⟩
        intro x hx
        rcases List.mem_cons.1 hx with rfl | hx
        · exact hlt
        · exact bytesLt_trans _ _ _ hlt (h.1 x hx)
      · rename_i hlt
        refine List.pairwise_cons.2 ⟨?_, Params.set_ok k v t h.2⟩
        intro x hx
        rcases Params.set_keys k v t x hx with hx | hx
        · rw [hx.1]; exact bytesLt_total _ _ hne (by simpa using hlt)
        · exact h.1 x hx

theorem Params.get_set (k v k' : Bytes) : ∀ m : Params, (m.set k v).get k' = if k' = k then v else m.get k'
  | [] => by simp [Params.set, Params.get]
  | (a, b) :: t => by
    unfold Params.set
    split
    · rename_i e
      subst e
      simp only [Params.get]
      split <;> rfl
    · split
      · simp only [Params.get]
      · simp only [Params.get]
        rw [Params.get_set k v k' t]
        split
        · rename_i e
          subst e
          rw [if_neg]
          rintro rfl
          rename_i h _
          exact h rfl
        · rfl

theorem Params.get_none {k : Bytes} : ∀ {m : Params}, (∀ x ∈ m, x.1 ≠ k) → m.get k = []
  | [], _ => rfl
  | (a, b) :: t, h => by
    unfold Params.get
    rw [if_neg (fun e => h (a, b) (by simp) e.symm)]
    exact Params.get_none fun x hx => h x (by simp [hx])

/-- Leaving out parameters without value changes no look-up. -/
theorem Params.get_filter (k : Bytes) : ∀ {m : Params}, ParamsOK m → Params.get k (m.filter (·.2 ≠ [])) = m.get k
  | [], _ => rfl
  | (a, b) :: t, h => by
    have h' := List.pairwise_cons.1 h
    rw [List.filter_cons]
    split
    · simp only [Params.get]
      rw [Params.get_filter k h'.2]
    · rename_i hb
      have hb : b = [] := by simpa using hb
      subst hb
      rw [Params.get_filter k h'.2]
      simp only [Params.get]
      split
      · rename_i e
        subst e
        apply Params.get_none
        intro x hx e
        have := h'.1 x hx
        rw [e, bytesLt_irrefl] at this
        simp at this
      · rfl

/-- Setting a key above all others appends it. -/
theorem Params.set_last (k v : Bytes) : ∀ {m : Params}, (∀ x ∈ m, bytesLt x.1 k = true) → m.set k v = m ++ [(k, v)]
  | [], _ => rfl
  | (a, b) :: t, h => by
    have h1 := h (a, b) (by simp)
    unfold Params.set
    rw [if_neg, if_neg, Params.set_last k v fun x hx => h x (by simp [hx])]
    · rfl
    · simp [bytesLt_asymm _ _ h1]
    · rintro rfl
      rw [bytesLt_irrefl] at h1
      simp at h1

/-- Putting the entries of a map in one after the other gives the map. -/
theorem Params.rebuild : ∀ (l m : Params), ParamsOK (m ++ l) → l.foldl (fun m x => m.set x.1 x.2) m = m ++ l
  | [], m, _ => by simp
  | (a, b) :: t, m, h => by
    rw [List.foldl_cons]
    have : ∀ x ∈ m, bytesLt x.1 a = true := by
      intro x hx
      exact (List.pairwise_append.1 h).2.2 x hx (a, b) (by simp)
    rw [Params.set_last a b this, Params.rebuild t _ (by simpa using h)]
    simp

end Wdt
