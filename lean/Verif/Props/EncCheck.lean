import Verif.Props.EncSocket
/-
C55: data behind a tag position is delivered only if the tag that arrived there is
the tag of everything that arrived before it, whatever arrives (a peer or somebody
in between who changes, drops, repeats or inserts bytes), however the reads are
split, with timeouts.

`Decodes` is the reference: which plaintext a stream of arrived bytes stands for.
-/
namespace Wdt

/-- `Tags n st inp st' inp'`: from the arrived bytes `inp`, `n` correct tags (with
the new vector where one is due) are taken, `inp'` is left. -/
inductive Tags (C : Cipher) (T I : Int) (st : EncSt) (inp : Bytes) : Nat → EncSt → Bytes → Prop
  | zero : Tags C T I st inp 0 st inp
  | same {n st₁ inp₁} : Tags C T I st inp n st₁ (C.tag st₁.iv st₁.done ++ inp₁) → TagAt T st₁.total →
      ¬(I ≠ 0 ∧ I < st₁.done.length + T) → Tags C T I st inp (n + 1) st₁ inp₁
  | change {n st₁ iv inp₁} : Tags C T I st inp n st₁ (C.tag st₁.iv st₁.done ++ (iv ++ inp₁)) → TagAt T st₁.total →
      (I ≠ 0 ∧ I < st₁.done.length + T) → iv.length = kTagLen →
      Tags C T I st inp (n + 1) { st₁ with iv := iv, done := [] } inp₁

/-- `Decodes st inp data st' inp'`: the arrived bytes `inp` begin with an encryption
of `data` in which every byte at a tag position follows a correct tag. -/
inductive Decodes (C : Cipher) (T I : Int) (st : EncSt) (inp : Bytes) : Bytes → EncSt → Bytes → Prop
  | nil : Decodes C T I st inp [] st inp
  | byte {data st₁ inp₁ n st₂ c inp₂} : Decodes C T I st inp data st₁ inp₁ →
      Tags C T I st₁ inp₁ n st₂ (c :: inp₂) → (TagAt T st₂.total → 0 < n) →
      Decodes C T I st inp (data ++ [C.dec st₂.iv st₂.done.length c])
        { st₂ with done := st₂.done ++ [c], total := st₂.total + 1 } inp₂

section
variable {C : Cipher} {T I : Int} {st₀ : EncSt} {inp : Bytes}

/-- The reader has delivered `data`, and taken `p` tags since. -/
def Sofar (C : Cipher) (T I : Int) (st₀ : EncSt) (inp data : Bytes) (r : EncR) (p : Nat) : Prop :=
  0 ≤ r.st.total ∧ ∃ st' inp', Decodes C T I st₀ inp data st' inp' ∧ Tags C T I st' inp' p r.st r.net.rest

/-- The reader refuses to go on. -/
def Dead (r : EncR) : Prop := r.err ≠ eOK ∧ r.err ≠ eWDT_TIMEOUT

/-- What is known after a call. -/
def After (C : Cipher) (T I : Int) (st₀ : EncSt) (inp data : Bytes) (r : EncR) : Prop :=
  (∃ p, Sofar C T I st₀ inp data r p) ∨ (Dead r ∧ ∃ st' inp', Decodes C T I st₀ inp data st' inp')

theorem decodes_bytes : ∀ (cs tl data : Bytes) (st' st : EncSt) (inp' : Bytes) (p : Nat),
    Decodes C T I st₀ inp data st' inp' → Tags C T I st' inp' p st (cs ++ tl) → cs ≠ [] →
    (TagAt T st.total → 0 < p) → (∀ i : Nat, 0 < i → i < cs.length → ¬TagAt T (st.total + i)) →
    Decodes C T I st₀ inp (data ++ encBytes C.dec st.iv st.done.length cs)
      { st with done := st.done ++ cs, total := st.total + cs.length } tl := by
  intro cs
  induction cs with
  | nil => intro _ _ _ _ _ _ _ _ h; exact absurd rfl h
  | cons c cs ih =>
    intro tl data st' st inp' p hd ht _ hp hno
    have h1 := Decodes.byte hd ht hp
    by_cases hcs : cs = []
    · subst hcs
      simpa [encBytes] using h1
    · have hlen : 0 < cs.length := List.length_pos_iff.2 hcs
      have := ih tl _ _ _ _ 0 h1 (.zero) hcs
        (fun hc => absurd hc (by
          have := hno 1 (by omega) (by simp; omega)
          simpa using this))
        (fun i hi hi2 => by
          have := hno (i + 1) (by omega) (by simp; omega)
          have e : st.total + 1 + (i : Int) = st.total + ((i + 1 : Nat) : Int) := by omega
          rw [← e] at this; exact this)
      simp only [encBytes, List.append_assoc, List.singleton_append, List.length_append, List.length_cons,
        List.length_nil] at this ⊢
      have e : st.total + 1 + (cs.length : Int) = st.total + ((cs.length + 1 : Nat) : Int) := by omega
      rw [e] at this
      exact this

theorem readInternal_cases (io : Nat → Option Nat) (n : Int) (full : Bool) (r : EncR) :
    ((readInternal io n full r).1 ≤ 0 ∧ (readInternal io n full r).2.1 = [] ∧ (readInternal io n full r).2.2.st = r.st
      ∧ (readInternal io n full r).2.2.net.rest = r.net.rest)
    ∨ ((readInternal io n full r).2.1 ≠ [] ∧ (readInternal io n full r).1 = (readInternal io n full r).2.1.length
      ∧ (readInternal io n full r).2.1.length ≤ n.toNat
      ∧ (readInternal io n full r).2.2.st = r.st
      ∧ r.net.rest = (readInternal io n full r).2.1 ++ (readInternal io n full r).2.2.net.rest) := by
  unfold readInternal
  cases io r.net.k with
  | none => left; exact ⟨by show (-1 : Int) ≤ 0; omega, rfl, rfl, rfl⟩
  | some f =>
    simp only []
    generalize hg : (if full = true then n.toNat else min (f + 1) n.toNat) = g
    have hgn : g ≤ n.toNat := by rw [← hg]; split <;> omega
    by_cases h : r.net.rest.take g = []
    · left; rw [if_pos h]; exact ⟨Int.le_refl _, rfl, rfl, rfl⟩
    · right; rw [if_neg h]
      refine ⟨h, rfl, ?_, rfl, (List.take_append_drop _ _).symm⟩
      simp only [List.length_take]; omega

theorem readAndDecrypt_after {io : Nat → Option Nat} {n : Int} {full : Bool} {r : EncR} {data : Bytes} {p : Nat}
    (h : Sofar C T I st₀ inp data r p) (hp : TagAt T r.st.total → 0 < p)
    (hno : ∀ i : Nat, 0 < i → (i : Int) < n → ¬TagAt T (r.st.total + i)) {ret : Int} {d : Bytes} {r' : EncR}
    (he : readAndDecrypt C io n full r = .ok (ret, d, r')) :
    (ret ≤ 0 ∧ d = [] ∧ Sofar C T I st₀ inp data r' p)
    ∨ (0 < ret ∧ ret = d.length ∧ ret ≤ n ∧ Sofar C T I st₀ inp (data ++ d) r' 0 ∧ r'.st.total = r.st.total + ret) := by
  obtain ⟨h0, st', inp', hd, ht⟩ := h
  unfold readAndDecrypt at he
  by_cases hn : n ≤ 0
  · rw [if_pos hn] at he; cases he
  · rw [if_neg hn] at he
    rcases readInternal_cases io n full r with ⟨h1, h2, h3, h4⟩ | ⟨h1, h2, h3, h4, h5⟩
    · rw [if_pos h1] at he
      left
      generalize readInternal io n full r = q at *
      obtain ⟨q1, q2, q3⟩ := q
      cases he
      refine ⟨h1, h2, ?_, st', inp', hd, ?_⟩
      · simp only at h3; rw [h3]; exact h0
      · simp only at h3 h4; rw [h3, h4]; exact ht
    · have hpos : 0 < (readInternal io n full r).2.1.length := List.length_pos_iff.2 h1
      rw [if_neg (by omega)] at he
      right
      generalize readInternal io n full r = q at *
      obtain ⟨q1, q2, q3⟩ := q
      simp only at *
      cases he
      rw [h5] at ht
      have := decodes_bytes q2 q3.net.rest data st' r.st inp' p hd ht h1 hp
        (fun i hi hi2 => hno i hi (by omega))
      refine ⟨by omega, ?_, by omega, ⟨by show 0 ≤ r.st.total + ret; omega, _, _, this, ?_⟩, rfl⟩
      · rw [encBytes_length]; exact h2
      · simp only [h2]; exact .zero

theorem dead_enc (r : EncR) : Dead { r with err := eENCRYPTION_ERROR } := ⟨by show (28 : Nat) ≠ 0; decide, by show (28 : Nat) ≠ 26; decide⟩

theorem readEncryptionTag_cases (io : Nat → Option Nat) (r : EncR) :
    ((readEncryptionTag io r).1 = [] ∧ Dead (readEncryptionTag io r).2)
    ∨ ((readEncryptionTag io r).1.length = kTagLen ∧ (readEncryptionTag io r).2.st = r.st
      ∧ r.net.rest = (readEncryptionTag io r).1 ++ (readEncryptionTag io r).2.net.rest) := by
  have hk : kTagLen = 16 := rfl
  unfold readEncryptionTag
  by_cases h : (readInternal io kTagLen true r).1 ≠ kTagLen
  · rw [if_pos h]; left; exact ⟨rfl, dead_enc _⟩
  · rw [if_neg h]
    right
    rcases readInternal_cases io kTagLen true r with ⟨h1, h2, h3, h4⟩ | ⟨h1, h2, h3, h4, h5⟩
    · exfalso; omega
    · exact ⟨by show (readInternal io kTagLen true r).2.1.length = _; omega, h4, h5⟩

theorem readTagAndIv_after {io : Nat → Option Nat} {r : EncR} {data : Bytes} {p : Nat}
    (h : Sofar C T I st₀ inp data r p) (htag : TagAt T r.st.total) :
    ((readTagAndIv C io T I r).1 = false ∧ Dead (readTagAndIv C io T I r).2)
    ∨ ((readTagAndIv C io T I r).1 = true ∧ Sofar C T I st₀ inp data (readTagAndIv C io T I r).2 (p + 1)
      ∧ (readTagAndIv C io T I r).2.st.total = r.st.total) := by
  have hk : kTagLen = 16 := rfl
  obtain ⟨h0, st', inp', hd, ht⟩ := h
  unfold readTagAndIv
  by_cases h1 : (readEncryptionTag io r).1 = []
  · rw [if_pos h1]
    left
    rcases readEncryptionTag_cases io r with ⟨_, h2⟩ | ⟨h2, _⟩
    · exact ⟨rfl, h2⟩
    · rw [h1] at h2; simp at h2; omega
  · rw [if_neg h1]
    by_cases h2 : (readEncryptionTag io r).1 ≠ C.tag r.st.iv r.st.done
    · rw [if_pos h2]; left; exact ⟨rfl, dead_enc _⟩
    · rw [if_neg h2]
      have h2' : (readEncryptionTag io r).1 = C.tag r.st.iv r.st.done := by
        by_contra hc; exact h2 hc
      rcases readEncryptionTag_cases io r with ⟨h3, _⟩ | ⟨_, hs, hr⟩
      · exact absurd h3 h1
      · generalize hq : readEncryptionTag io r = q at *
        obtain ⟨tg, r1⟩ := q
        simp only at *
        subst h2'
        rw [hr] at ht
        rw [← hs] at ht htag h0
        by_cases hI : I = 0
        · have : changeDecryptionIv C io T I (C.tag r.st.iv r.st.done) r1 = (true, r1) := by
            unfold changeDecryptionIv; rw [if_pos hI]
          rw [this]
          simp only [Bool.true_eq_false, if_false]
          right
          refine ⟨trivial, ⟨h0, st', inp', hd, .same (by simpa [hs] using ht) htag (by omega)⟩, by rw [hs]⟩
        · by_cases hle : (r1.st.done.length : Int) + T ≤ I
          · have : changeDecryptionIv C io T I (C.tag r.st.iv r.st.done) r1 = (true, r1) := by
              unfold changeDecryptionIv; rw [if_neg hI, if_pos hle]
            rw [this]
            simp only [Bool.true_eq_false, if_false]
            right
            refine ⟨trivial, ⟨h0, st', inp', hd, .same (by simpa [hs] using ht) htag (by omega)⟩, by rw [hs]⟩
          · by_cases hv : (readInternal io kTagLen true r1).1 ≠ kTagLen
            · have : (changeDecryptionIv C io T I (C.tag r.st.iv r.st.done) r1).1 = false := by
                unfold changeDecryptionIv; rw [if_neg hI, if_neg hle, if_pos hv]
              rw [if_pos this]
              left; exact ⟨rfl, dead_enc _⟩
            · have hc : changeDecryptionIv C io T I (C.tag r.st.iv r.st.done) r1
                  = (true, { (readInternal io kTagLen true r1).2.2 with
                      st := { r1.st with iv := (readInternal io kTagLen true r1).2.1, done := [] } }) := by
                unfold changeDecryptionIv
                rw [if_neg hI, if_neg hle, if_neg hv, if_neg (by simp [hs])]
              rw [hc]
              simp only [Bool.true_eq_false, if_false]
              right
              rcases readInternal_cases io kTagLen true r1 with ⟨g1, g2, g3, g4⟩ | ⟨g1, g2, g3, g4, g5⟩
              · exfalso; omega
              · rw [g5] at ht
                refine ⟨trivial, ⟨h0, st', inp', hd, .change (by simpa [hs] using ht) htag ⟨hI, by omega⟩ (by omega)⟩, ?_⟩
                rw [hs]

theorem readRest_after {io : Nat → Option Nat} {n : Int} {full : Bool} {r : EncR} {data got : Bytes} {p : Nat}
    (h : Sofar C T I st₀ inp (data ++ got) r p) (hp : TagAt T r.st.total → 0 < p)
    (hno : ∀ i : Nat, 0 < i → (i : Int) < n - got.length → ¬TagAt T (r.st.total + i)) {ret : Int} {d : Bytes} {r' : EncR}
    (he : readRest C io n full got r = .ok (ret, d, r')) :
    (∃ p, Sofar C T I st₀ inp (data ++ d) r' p) ∧ (0 < ret → ret = d.length) ∧ (ret ≤ 0 → d = []) := by
  unfold readRest at he
  split at he
  · cases he
  · next ret1 d1 r1 he1 =>
    rcases readAndDecrypt_after h hp hno he1 with ⟨h1, h2, h3⟩ | ⟨h1, h2, h3, h4, _⟩
    · rw [if_pos h1] at he
      by_cases hg : (got.length : Int) > 0
      · rw [if_pos hg] at he
        cases he
        exact ⟨⟨p, h3⟩, fun _ => rfl, fun hc => by omega⟩
      · rw [if_neg hg] at he
        have : got = [] := List.length_eq_zero_iff.1 (by omega)
        cases he
        subst this
        exact ⟨⟨p, h3⟩, fun hc => by omega, fun _ => rfl⟩
    · rw [if_neg (by omega)] at he
      cases he
      refine ⟨⟨0, by rw [← List.append_assoc]; exact h4⟩, fun _ => ?_, fun hc => by omega⟩
      rw [List.length_append, h2]; omega

theorem readFromTag_after {io : Nat → Option Nat} {n : Int} {full : Bool} {r : EncR} {data got : Bytes} {p : Nat}
    (h : Sofar C T I st₀ inp (data ++ got) r p) (htag : TagAt T r.st.total) (hn : n - got.length ≤ T)
    {ret : Int} {d : Bytes} {r' : EncR} (he : readFromTag C io T I n full got r = .ok (ret, d, r')) :
    ((∃ p, Sofar C T I st₀ inp (data ++ d) r' p) ∧ (0 < ret → ret = d.length) ∧ (ret ≤ 0 → d = []))
    ∨ (Dead r' ∧ ret ≤ 0 ∧ d = []) := by
  unfold readFromTag at he
  split at he
  · cases he
  · rcases readTagAndIv_after (io := io) h htag with ⟨h1, h2⟩ | ⟨h1, h2, h3⟩
    · rw [if_pos h1] at he
      cases he
      right; exact ⟨h2, by decide, rfl⟩
    · rw [if_neg (by simp [h1])] at he
      left
      exact readRest_after h2 (fun _ => by omega)
        (fun i hi hi2 => by rw [h3]; exact tag_gap htag (by omega) (by omega)) he

theorem readAndDecryptWithTag_after {io : Nat → Option Nat} {n : Int} {full : Bool} {r : EncR} {data : Bytes} {p : Nat}
    (h : Sofar C T I st₀ inp data r p) {ret : Int} {d : Bytes} {r' : EncR}
    (he : readAndDecryptWithTag C io T I n full r = .ok (ret, d, r')) :
    ((∃ p, Sofar C T I st₀ inp (data ++ d) r' p) ∧ (0 < ret → ret = d.length) ∧ (ret ≤ 0 → d = []))
    ∨ (Dead r' ∧ ret ≤ 0 ∧ d = []) := by
  unfold readAndDecryptWithTag at he
  split at he
  · cases he
  next hT =>
  split at he
  · cases he
  next hnT =>
  obtain ⟨g0, gt, gn⟩ := tagOffset_spec (T := T) (by omega) h.1
  generalize computeNextTagOffset r.st.total T = off at *
  split at he
  next hlt =>
    split at he
    next hpos =>
      split at he
      · cases he
      next ret1 d1 r1 he1 =>
        have hno : ∀ i : Nat, (i : Int) < off → ¬TagAt T (r.st.total + i) := fun i hi => gn i (by omega) hi
        rcases readAndDecrypt_after h (fun hc => absurd hc (by simpa using hno 0 (by simpa using hpos)))
          (fun i _ hi => hno i hi) he1 with ⟨h1, h2, h3⟩ | ⟨h1, h2, h3, h4, h5⟩
        · rw [if_pos h1] at he
          cases he
          exact Or.inl ⟨⟨p, by simpa using h3⟩, fun hc => by omega, fun _ => rfl⟩
        · rw [if_neg (by omega)] at he
          by_cases hsh : ret1 < off
          · rw [if_pos hsh] at he
            cases he
            exact Or.inl ⟨⟨0, h4⟩, fun _ => h2, fun hc => by omega⟩
          · rw [if_neg hsh] at he
            have hro : ret1 = off := by omega
            exact readFromTag_after h4 (by rw [h5, hro]; exact gt) (by omega) he
    next hpos =>
      have hz : off = 0 := by omega
      exact readFromTag_after (got := []) (by simpa using h) (by rw [hz] at gt; simpa using gt) (by simp; omega) he
  next hlt =>
    have hno : ∀ i : Nat, (i : Int) < off → ¬TagAt T (r.st.total + i) := fun i hi => gn i (by omega) hi
    by_cases hn : n ≤ 0
    · exfalso
      unfold readRest readAndDecrypt at he
      rw [if_pos (by simpa using hn)] at he; cases he
    · left
      exact readRest_after (got := []) (by simpa using h)
        (fun hc => absurd hc (by simpa using hno 0 (by simp; omega)))
        (fun i _ hi => hno i (by simp at hi; omega)) he

theorem readTagLoop_after {io : Nat → Option Nat} {n : Int} {full : Bool} : ∀ (fuel : Nat) (r : EncR) (data got : Bytes) (p : Nat),
    Sofar C T I st₀ inp (data ++ got) r p → ∀ {ret : Int} {d : Bytes} {r' : EncR},
    readTagLoop C io T I n full fuel got r = .ok (ret, d, r') →
    After C T I st₀ inp (data ++ d) r' := by
  intro fuel
  induction fuel with
  | zero => intro r data got p _ ret d r' he; cases he
  | succ fuel ih =>
    intro r data got p h ret d r' he
    unfold readTagLoop at he
    split at he
    next hlt =>
      split at he
      · cases he
      next ret1 d1 r1 he1 =>
        have hg0 : ∀ {x : Int × Bytes × EncR}, (if (got.length : Int) > 0 then (((got.length : Int), got, r1) : Int × Bytes × EncR) else (ret1, [], r1)) = x →
            x.2.1 = got ∧ x.2.2 = r1 := by
          intro x hx
          by_cases hg : (got.length : Int) > 0
          · rw [if_pos hg] at hx; subst hx; exact ⟨rfl, rfl⟩
          · rw [if_neg hg] at hx
            have : got = [] := List.length_eq_zero_iff.1 (by omega)
            subst hx this; exact ⟨rfl, rfl⟩
        rcases readAndDecryptWithTag_after h he1 with ⟨⟨p', ha⟩, hp, hz⟩ | ⟨hdead, hr, hd⟩
        · by_cases h1 : ret1 ≤ 0
          · rw [if_pos h1] at he
            have := hz h1
            subst this
            rw [List.append_nil] at ha
            obtain ⟨e1, e2⟩ := hg0 (Except.ok.inj he)
            simp only at e1 e2
            subst e1 e2
            exact Or.inl ⟨p', ha⟩
          · rw [if_neg h1] at he
            rw [List.append_assoc] at ha
            by_cases h2 : ret1 < min (n - (got.length : Int)) T
            · rw [if_pos h2] at he; cases he; exact Or.inl ⟨p', ha⟩
            · rw [if_neg h2] at he
              exact ih r1 data (got ++ d1) p' ha he
        · rw [if_pos hr] at he
          obtain ⟨e1, e2⟩ := hg0 (Except.ok.inj he)
          simp only at e1 e2
          subst e1 e2
          obtain ⟨_, st', inp', hdd, _⟩ := h
          exact Or.inr ⟨hdead, st', inp', hdd⟩
    next hlt => cases he; exact Or.inl ⟨p, h⟩

theorem encRead_after {io : Nat → Option Nat} {n : Int} {full : Bool} {r : EncR} {data : Bytes}
    (h : After C T I st₀ inp data r) {ret : Int} {d : Bytes} {r' : EncR}
    (he : encRead C io T I n full r = .ok (ret, d, r')) : After C T I st₀ inp (data ++ d) r' := by
  unfold encRead at he
  split at he
  · cases he
  split at he
  · cases he; simpa using h
  next hn hdead =>
    rcases h with ⟨p, h⟩ | ⟨h, _⟩
    · have h' : Sofar C T I st₀ inp data { r with err := eOK } p := h
      split at he
      next hT =>
        have hno : ∀ a : Int, ¬TagAt T a := fun a hc => by have := hc.1; omega
        rcases readAndDecrypt_after h' (fun hc => absurd hc (hno _)) (fun i _ _ => hno _) he
          with ⟨_, h2, h3⟩ | ⟨_, _, _, h4, _⟩
        · subst h2; exact Or.inl ⟨p, by simpa using h3⟩
        · exact Or.inl ⟨0, h4⟩
      next hT =>
        exact readTagLoop_after _ _ data [] p (by simpa using h') he
    · exact absurd h hdead

theorem encReads_after (C : Cipher) (T I : Int) (iv inp : Bytes) (io : Nat → Option Nat)
    (reads : List (Int × Bool)) (rets : List Int) (data : Bytes) (r : EncR)
    (h : encReads C io T I reads (.fresh iv inp) = .ok (rets, data, r)) :
    After C T I { iv := iv } inp data r := by
  have gen : ∀ (l : List (Int × Bool)) (r₀ r : EncR) (d₀ : Bytes) (rets : List Int) (data : Bytes),
      After C T I { iv := iv } inp d₀ r₀ → encReads C io T I l r₀ = .ok (rets, data, r) →
      After C T I { iv := iv } inp (d₀ ++ data) r := by
    intro l
    induction l with
    | nil => intro r₀ r d₀ rets data ha he; cases he; simpa using ha
    | cons p l ih =>
      intro r₀ r d₀ rets data ha he
      obtain ⟨n, full⟩ := p
      unfold encReads at he
      split at he
      · cases he
      next ret d r1 he1 =>
        split at he
        · cases he
        next rets2 more r2 he2 =>
          cases he
          have := ih r1 r _ _ _ (encRead_after ha he1) he2
          rw [List.append_assoc] at this; exact this
  have := gen reads _ r [] rets data
    (Or.inl ⟨0, by simp [EncR.fresh], _, _, .nil, .zero⟩) h
  rwa [List.nil_append] at this

/-- C55: whatever bytes arrive, whatever the sizes of the reads, with or without
timeouts, for every cipher: what the reads deliver altogether is what a prefix of
the arrived bytes stands for, every byte at a tag position preceded by the tag of
all the bytes that arrived before it under the vector in use. -/
theorem C55_only_checked (C : Cipher) (T I : Int) (iv inp : Bytes) (io : Nat → Option Nat)
    (reads : List (Int × Bool)) (rets : List Int) (data : Bytes) (r : EncR)
    (h : encReads C io T I reads (.fresh iv inp) = .ok (rets, data, r)) :
    ∃ st' inp', Decodes C T I { iv := iv } inp data st' inp' := by
  rcases encReads_after C T I iv inp io reads rets data r h with ⟨p, _, st', inp', hd, _⟩ | ⟨_, hd⟩
  · exact ⟨_, _, hd⟩
  · exact hd

/-- C55, the end of the stream: if the end of the stream is accepted on a reader that
has not failed, what was delivered is followed by a tag, the tag of all the bytes that
arrived under the vector in use. -/
theorem C55_stream_end (C : Cipher) (T I : Int) (iv inp : Bytes) (io : Nat → Option Nat)
    (reads : List (Int × Bool)) (rets : List Int) (data : Bytes) (r r' : EncR)
    (h : encReads C io T I reads (.fresh iv inp) = .ok (rets, data, r)) (hlive : ¬Dead r)
    (hfin : finalizeReads C io r = (true, r')) :
    ∃ st' inp' n st'' tl, Decodes C T I { iv := iv } inp data st' inp' ∧
      Tags C T I st' inp' n st'' (C.tag st''.iv st''.done ++ tl) := by
  rcases encReads_after C T I iv inp io reads rets data r h with ⟨p, _, st', inp', hd, ht⟩ | ⟨hdead, _⟩
  · refine ⟨st', inp', p, r.st, (readInternal io kTagLen true r).2.2.net.rest, hd, ?_⟩
    unfold finalizeReads readEncryptionTag at hfin
    by_cases h16 : (readInternal io kTagLen true r).1 ≠ kTagLen
    · rw [if_pos h16] at hfin
      have := (Prod.mk.injEq _ _ _ _).mp hfin |>.1
      simp at this
    · rw [if_neg h16] at hfin
      have h1 := (Prod.mk.injEq _ _ _ _).mp hfin |>.1
      have h2 := of_decide_eq_true h1
      rcases readInternal_cases io kTagLen true r with ⟨h3, h4, _⟩ | ⟨_, _, _, _, h5⟩
      · exact absurd h4 h2.1
      · rw [← h2.2, ← h5]; exact ht
  · exact absurd hdead hlive

/-- Case: six bytes with one tag inside the stream; the end is accepted, and is not if
one byte of the ciphertext is different. -/
example : (match encWrites toyCipher toyIvs 4 0 [[1, 2, 3, 4, 5, 6]] (.fresh [9]) with
    | .ok w => (match encReads toyCipher (fun _ => some 100) 4 0 [(6, true)] (.fresh [9] (finalizeWrites toyCipher w).out),
        encReads toyCipher (fun _ => some 100) 4 0 [(6, true)]
          (.fresh [9] ((finalizeWrites toyCipher w).out.set 21 77)) with
      | .ok (_, _, r), .ok (_, _, q) => some ((finalizeReads toyCipher (fun _ => some 100) r).1,
          (finalizeReads toyCipher (fun _ => some 100) q).1, decide (q.err = eOK))
      | _, _ => none)
    | _ => none) = some (true, false, true) := by decide +kernel

/-- What `Decodes` says about the first tag: more than one interval of data means
that the first interval was followed by its tag. -/
theorem C55_first_tag (C : Cipher) (ivs : Nat → Bytes) (hC : CipherOK C ivs) (T I : Int) (hT : 0 < T) (iv inp : Bytes)
    (io : Nat → Option Nat) (reads : List (Int × Bool)) (rets : List Int) (data : Bytes) (r : EncR)
    (h : encReads C io T I reads (.fresh iv inp) = .ok (rets, data, r)) (hlen : T < data.length) :
    (inp.drop T.toNat).take kTagLen = C.tag iv (inp.take T.toNat) := by
  obtain ⟨st', inp', hd⟩ := C55_only_checked C T I iv inp io reads rets data r h
  -- up to the first tag the bytes are taken one by one
  have tags_total : ∀ {st inp n st' inp'}, Tags C T I st inp n st' inp' → st'.total = st.total ∧
      (¬TagAt T st.total → n = 0 ∧ st' = st ∧ inp' = inp) ∧
      (0 < n → ∃ tl, inp = C.tag st.iv st.done ++ tl) := by
    intro st inp n st' inp' ht
    induction ht with
    | zero => exact ⟨rfl, fun _ => ⟨rfl, rfl, rfl⟩, fun h => by omega⟩
    | @same n st₁ inp₁ h1 h2 h3 ih =>
      refine ⟨ih.1, fun hc => absurd (ih.1 ▸ h2) hc, fun _ => ?_⟩
      by_cases hn : 0 < n
      · exact ih.2.2 hn
      · have hn0 : n = 0 := by omega
        subst hn0
        cases h1
        exact ⟨_, rfl⟩
    | @change n st₁ iv inp₁ h1 h2 h3 h4 ih =>
      refine ⟨ih.1, fun hc => absurd (ih.1 ▸ h2) hc, fun _ => ?_⟩
      by_cases hn : 0 < n
      · exact ih.2.2 hn
      · have hn0 : n = 0 := by omega
        subst hn0
        cases h1
        exact ⟨_, rfl⟩
  have key : ∀ {data st' inp'}, Decodes C T I { iv := iv } inp data st' inp' →
      st'.total = data.length ∧
      ((data.length : Int) ≤ T → st'.iv = iv ∧ inp = st'.done ++ inp' ∧ st'.done.length = data.length) ∧
      (T < data.length → (inp.drop T.toNat).take kTagLen = C.tag iv (inp.take T.toNat)) := by
    intro data st' inp' hd
    induction hd with
    | nil => exact ⟨rfl, fun _ => ⟨rfl, rfl, rfl⟩, fun h => by simp at h; omega⟩
    | @byte data st₁ inp₁ n st₂ c inp₂ hd ht hp ih =>
      obtain ⟨i1, i2, i3⟩ := ih
      obtain ⟨t1, t2, t3⟩ := tags_total ht
      refine ⟨by show st₂.total + 1 = _; rw [t1, i1, List.length_append]; simp, fun hle => ?_, fun hlt => ?_⟩
      · rw [List.length_append] at hle
        simp only [List.length_cons, List.length_nil] at hle
        obtain ⟨j1, j2, j3⟩ := i2 (by omega)
        have hnt : ¬TagAt T st₁.total := by
          rw [i1]
          rintro ⟨_, h1, h2⟩
          rw [Int.emod_eq_of_lt (by omega) (by omega)] at h2
          exact h1 h2
        obtain ⟨_, k1, k2⟩ := t2 hnt
        subst k1
        refine ⟨j1, ?_, ?_⟩
        · rw [j2, ← k2]; simp
        · simp [j3]
      · by_cases hgt : T < data.length
        · exact i3 hgt
        · rw [List.length_append] at hlt
          simp only [List.length_cons, List.length_nil] at hlt
          have hT' : (data.length : Int) = T := by omega
          have htag : TagAt T st₂.total := by
            rw [t1, i1, hT']; exact ⟨hT, by omega, by simp⟩
          obtain ⟨j1, j2, j3⟩ := i2 (by omega)
          obtain ⟨tl, e⟩ := t3 (hp htag)
          have hl : T.toNat = st₁.done.length := by omega
          rw [j2, hl, List.drop_left, List.take_left, e, ← hC.tagLen st₁.iv st₁.done, List.take_left, j1]
  exact (key hd).2.2 hlen

/-- Case: a changed byte within the first interval. Nothing behind the first tag is
delivered. -/
example : ((match encWrites toyCipher toyIvs 4 0 [[1, 2, 3, 4, 5, 6]] (.fresh [9]) with
    | .ok w => (match encReads toyCipher (fun _ => some 1) 4 0 [(3, false), (3, true)] (.fresh [9] (w.out.set 1 77)) with
      | .ok (rets, data, r) => some (rets, data.length, r.err)
      | .error _ => none)
    | .error _ => none)) = some ([2, -1], 2, eENCRYPTION_ERROR) := by decide +kernel


end

end Wdt
