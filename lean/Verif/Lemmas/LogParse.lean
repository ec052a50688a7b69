import Verif.Lemmas.TransferLog
import Mathlib.Tactic.ByContra
import Mathlib.Data.List.Induction
/-
What the parser's state says about the entries read so far.
-/
namespace Wdt

/-- The entry makes the directory's content doubtful: an invalidation of the directory or
a header of another transfer. -/
def LogEntry.resets (env : LogEnv) : LogEntry → Bool
  | .header _ _ r _ c => decide (r ≠ env.recoveryId ∨ c ≠ env.config)
  | .dirInvalidation _ => true
  | _ => false

/-- The entry is a header of this transfer. -/
def LogEntry.confirms (env : LogEnv) : LogEntry → Bool
  | .header _ _ r _ c => decide (r = env.recoveryId ∧ c = env.config)
  | _ => false

/-- The directory is in doubt after these entries: it was invalidated and no header of this
transfer followed. -/
def inDoubt (env : LogEnv) (es : List LogEntry) : Bool :=
  es.foldl (fun d e => if e.resets env then true else if e.confirms env then false else d) false

/-- The entry ends what earlier entries said about file `i`. -/
def LogEntry.endsFile (env : LogEnv) (i : Int) : LogEntry → Bool
  | .fileCreation _ _ j _ => decide (j = i)
  | .fileInvalidation _ j => decide (j = i)
  | e => e.resets env

/-- Range recorded as written for file `i`. -/
def LogEntry.range (i : Int) : LogEntry → List Interval
  | .blockWrite _ j o s => if j = i then [⟨o, o + s⟩] else []
  | _ => []

/-- According to the log, file `i` was created with this name and size, is still valid,
and since then exactly these ranges were recorded. -/
def Live (env : LogEnv) (es : List LogEntry) (i : Int) (n : Bytes) (size : Int) (ranges : List Interval) : Prop :=
  ∃ pre ts post, es = pre ++ .fileCreation ts n i size :: post ∧ inDoubt env pre = false ∧
    (∀ e ∈ post, e.endsFile env i = false) ∧ ranges = post.flatMap (LogEntry.range i)

/-- The file is on disk as required (large enough if files are preallocated); its size. -/
def onDisk (env : LogEnv) (n : Bytes) (size : Int) : Option Int :=
  match env.disk n with
  | none => none
  | some d => if env.prealloc && decide (d < size) then none else some d

theorem inDoubt_snoc (env : LogEnv) (es : List LogEntry) (e : LogEntry) :
    inDoubt env (es ++ [e]) = if e.resets env then true else if e.confirms env then false else inDoubt env es := by
  simp [inDoubt, List.foldl_append]

theorem endsFile_of_resets {env : LogEnv} {e : LogEntry} (h : e.resets env = true) (i : Int) :
    e.endsFile env i = true := by
  cases e <;> simp_all [LogEntry.resets, LogEntry.endsFile]

theorem live_snoc (env : LogEnv) (es : List LogEntry) (e : LogEntry) (i : Int) (n : Bytes) (sz : Int)
    (ch : List Interval) : Live env (es ++ [e]) i n sz ch ↔
      ((∃ ts, e = .fileCreation ts n i sz) ∧ inDoubt env es = false ∧ ch = []) ∨
      (e.endsFile env i = false ∧ ∃ ch', Live env es i n sz ch' ∧ ch = ch' ++ e.range i) := by
  constructor
  · rintro ⟨pre, ts, post, h1, h2, h3, h4⟩
    rcases List.eq_nil_or_concat post with rfl | ⟨post', x, rfl⟩
    · obtain ⟨e1, e2⟩ := List.append_inj' h1 (by simp)
      simp only [List.cons.injEq, and_true] at e2
      exact Or.inl ⟨⟨ts, e2⟩, e1 ▸ h2, by simpa using h4⟩
    · rw [List.concat_eq_append] at *
      rw [← List.cons_append, ← List.append_assoc] at h1
      obtain ⟨e1, e2⟩ := List.append_inj' h1 (by simp)
      simp only [List.cons.injEq, and_true] at e2
      subst e2
      refine Or.inr ⟨h3 e (by simp), post'.flatMap (LogEntry.range i), ⟨pre, ts, post', e1, h2, ?_, rfl⟩, ?_⟩
      · intro y hy; exact h3 y (by simp [hy])
      · rw [h4, List.flatMap_append]; simp
  · rintro (⟨⟨ts, rfl⟩, h2, rfl⟩ | ⟨h1, ch', ⟨pre, ts, post, h2, h3, h4, rfl⟩, rfl⟩)
    · exact ⟨es, ts, [], rfl, h2, by simp, by simp⟩
    · refine ⟨pre, ts, post ++ [e], by rw [h2]; simp, h3, ?_, by rw [List.flatMap_append]; simp⟩
      intro y hy
      rcases List.mem_append.1 hy with hy | hy
      · exact h4 y hy
      · simp only [List.mem_singleton] at hy; subst hy; exact h1

theorem live_nil {env : LogEnv} {i : Int} {n : Bytes} {sz : Int} {ch : List Interval} : ¬ Live env [] i n sz ch := by
  rintro ⟨pre, ts, post, h, _⟩; simp at h

theorem live_not_doubt (env : LogEnv) (es : List LogEntry) : ∀ (i : Int) (n : Bytes) (sz : Int) (ch : List Interval),
    Live env es i n sz ch → inDoubt env es = false := by
  induction es using List.reverseRecOn with
  | nil => intro i n sz ch h; exact absurd h live_nil
  | append_singleton es e ih =>
    intro i n sz ch h
    rw [inDoubt_snoc]
    rcases (live_snoc env es e i n sz ch).1 h with ⟨⟨ts, rfl⟩, h2, _⟩ | ⟨h1, ch', h2, _⟩
    · simpa [LogEntry.resets, LogEntry.confirms] using h2
    · have := ih i n sz ch' h2
      have hr : e.resets env = false := by
        by_contra hc
        rw [endsFile_of_resets (by simpa using hc) i] at h1; cases h1
      rw [hr, this]; simp

theorem live_unique (env : LogEnv) (es : List LogEntry) : ∀ (i : Int) (n n' : Bytes) (sz sz' : Int)
    (ch ch' : List Interval), Live env es i n sz ch → Live env es i n' sz' ch' → n = n' ∧ sz = sz' ∧ ch = ch' := by
  induction es using List.reverseRecOn with
  | nil => intro i n n' sz sz' ch ch' h; exact absurd h live_nil
  | append_singleton es e ih =>
    intro i n n' sz sz' ch ch' h h'
    rw [live_snoc] at h h'
    rcases h with ⟨⟨ts, rfl⟩, h2, rfl⟩ | ⟨h1, c1, h2, rfl⟩ <;>
      rcases h' with ⟨⟨ts', he⟩, h2', rfl⟩ | ⟨h1', c1', h2', rfl⟩
    · simp only [LogEntry.fileCreation.injEq, true_and] at he
      obtain ⟨_, e1, e2⟩ := he
      exact ⟨e1, e2, rfl⟩
    · simp [LogEntry.endsFile] at h1'
    · subst he; simp [LogEntry.endsFile] at h1
    · obtain ⟨a, b, c⟩ := ih i n n' sz sz' c1 c1' h2 h2'
      exact ⟨a, b, by rw [c]⟩

/-! ### Sorted maps -/

/-- Strictly ascending ids. -/
def Ascending (l : List FileChunksInfo) : Prop := l.Pairwise fun a b => a.seqId < b.seqId

theorem mem_insInfo (x y : FileChunksInfo) (l : List FileChunksInfo) : y ∈ insInfo x l ↔ y = x ∨ y ∈ l := by
  induction l with
  | nil => simp [insInfo]
  | cons z l ih =>
    simp only [insInfo]
    split
    · simp
    · simp only [List.mem_cons, ih]
      constructor
      · rintro (h | h | h) <;> simp [h]
      · rintro (h | h | h) <;> simp [h]

theorem mem_insId (x y : Int) (l : List Int) : y ∈ insId x l ↔ y = x ∨ y ∈ l := by
  induction l with
  | nil => simp [insId]
  | cons z l ih =>
    simp only [insId]
    split
    · simp
    · simp only [List.mem_cons, ih]
      constructor
      · rintro (h | h | h) <;> simp [h]
      · rintro (h | h | h) <;> simp [h]

theorem nodup_insId (x : Int) (l : List Int) (hx : x ∉ l) (h : l.Nodup) : (insId x l).Nodup := by
  induction l with
  | nil => simp [insId]
  | cons z l ih =>
    rw [List.nodup_cons] at h
    simp only [List.mem_cons, not_or] at hx
    simp only [insId]
    split
    · rw [List.nodup_cons, List.nodup_cons]
      exact ⟨by simp [hx.1, hx.2], h⟩
    · rw [List.nodup_cons, mem_insId]
      refine ⟨?_, ih hx.2 h.2⟩
      rintro (h1 | h1)
      · exact hx.1 h1.symm
      · exact h.1 h1

theorem ascending_ins (x : FileChunksInfo) (l : List FileChunksInfo) (h : Ascending l)
    (hx : ∀ y ∈ l, y.seqId ≠ x.seqId) : Ascending (insInfo x l) := by
  induction l with
  | nil => simp [insInfo, Ascending]
  | cons z l ih =>
    unfold Ascending at *
    rw [List.pairwise_cons] at h
    simp only [insInfo]
    split
    · rename_i hlt
      rw [List.pairwise_cons]
      refine ⟨?_, List.pairwise_cons.2 h⟩
      intro y hy
      rcases List.mem_cons.1 hy with rfl | hy
      · exact hlt
      · have := h.1 y hy; omega
    · rename_i hlt
      rw [List.pairwise_cons]
      refine ⟨?_, ih h.2 (fun y hy => hx y (by simp [hy]))⟩
      intro y hy
      rcases (mem_insInfo x y l).1 hy with rfl | hy
      · have := hx z (by simp); omega
      · exact h.1 y hy

theorem ascending_addChunk (i : Int) (c : Interval) (l : List FileChunksInfo) (h : Ascending l) :
    Ascending (addChunk i c l) := by
  unfold Ascending addChunk at *
  rw [List.pairwise_map]
  refine h.imp ?_
  intro a b hab
  split <;> split <;> exact hab

theorem mem_addChunk (i : Int) (c : Interval) (l : List FileChunksInfo) (x : FileChunksInfo) :
    x ∈ addChunk i c l ↔ (x ∈ l ∧ x.seqId ≠ i) ∨ ∃ y ∈ l, y.seqId = i ∧ x = { y with chunks := y.chunks ++ [c] } := by
  unfold addChunk
  rw [List.mem_map]
  constructor
  · rintro ⟨y, hy, rfl⟩
    by_cases h : y.seqId = i
    · exact Or.inr ⟨y, hy, h, by simp [h]⟩
    · exact Or.inl ⟨by simp [h, hy], by simp [h]⟩
  · rintro (⟨h1, h2⟩ | ⟨y, hy, h, rfl⟩)
    · exact ⟨x, h1, by simp [h2]⟩
    · exact ⟨y, hy, by simp [h]⟩

theorem find_none {st : LP} {i : Int} : st.find i = none ↔ ∀ x ∈ st.infos, x.seqId ≠ i := by
  simp [LP.find, List.find?_eq_none]

theorem find_some {st : LP} {i : Int} {x : FileChunksInfo} (h : st.find i = some x) : x ∈ st.infos ∧ x.seqId = i := by
  unfold LP.find at h
  exact ⟨List.mem_of_find?_eq_some h, by simpa using List.find?_some h⟩

/-! ### Runs over entries -/

/-- One decoded entry. -/
def LP.stepEntry (env : LogEnv) (st : LP) (e : LogEntry) : Except Fault LP :=
  if st.status = eINCONSISTENT_DIRECTORY ∧ e.type ≠ 0 then .ok st
  else match st.process env e with
    | .error f => .error f
    | .ok st' => .ok st'.settle

/-- Feed entries to the parser, stopping when the log is found invalid. -/
def runEntries (env : LogEnv) : LP → List LogEntry → Except Fault LP
  | st, [] => .ok st
  | st, e :: es => match st.stepEntry env e with
    | .error f => .error f
    | .ok st' => if st'.status = eINVALID_LOG then .ok st' else runEntries env st' es

/-- Decode a payload. -/
def decodePayload : Bytes → Option LogEntry
  | [] => none
  | ty :: body => decodeEntry ty body

theorem decodePayload_payload (e : LogEntry) (h : e.InRange) : decodePayload e.payload = some e := decode_body e h

theorem decodeEntry_type {ty : UInt8} {body : Bytes} {e : LogEntry} (h : decodeEntry ty body = some e) : e.type = ty := by
  have key : ∀ {α : Type} (d : Dec α) (f : α → Prop), (∀ b a r, d b = (some a, r) → f a) →
      ∀ a, decodeAll d body = some a → f a := by
    intro α d f hd a ha
    unfold decodeAll at ha
    split at ha
    · rename_i h1; simp only [Option.some.injEq] at ha; subst ha; exact hd _ _ _ h1
    · cases ha
  have bind : ∀ {α β : Type} (d : Dec α) (k : α → Dec β) (f : β → Prop),
      (∀ a b x r, k a b = (some x, r) → f x) → ∀ b x r, d.bind k b = (some x, r) → f x := by
    intro α β d k f hk b x r hx
    unfold Dec.bind at hx
    split at hx
    · cases hx
    · exact hk _ _ _ _ hx
  unfold decodeEntry at h
  split at h
  · rename_i ht; subst ht
    refine key _ (fun e => e.type = 0) ?_ e h
    refine bind _ _ _ fun _ => bind _ _ _ fun _ => bind _ _ _ fun _ => bind _ _ _ fun _ => bind _ _ _ fun _ => ?_
    intro b x r hx; simp only [Dec.pure, Prod.mk.injEq, Option.some.injEq] at hx; rw [← hx.1]; rfl
  split at h
  · rename_i ht; subst ht
    refine key _ (fun e => e.type = 1) ?_ e h
    refine bind _ _ _ fun _ => bind _ _ _ fun _ => bind _ _ _ fun _ => bind _ _ _ fun _ => ?_
    intro b x r hx; simp only [Dec.pure, Prod.mk.injEq, Option.some.injEq] at hx; rw [← hx.1]; rfl
  split at h
  · rename_i ht; subst ht
    refine key _ (fun e => e.type = 2) ?_ e h
    refine bind _ _ _ fun _ => bind _ _ _ fun _ => bind _ _ _ fun _ => bind _ _ _ fun _ => ?_
    intro b x r hx; simp only [Dec.pure, Prod.mk.injEq, Option.some.injEq] at hx; rw [← hx.1]; rfl
  split at h
  · rename_i ht; subst ht
    refine key _ (fun e => e.type = 3) ?_ e h
    refine bind _ _ _ fun _ => bind _ _ _ fun _ => ?_
    intro b x r hx; simp only [Dec.pure, Prod.mk.injEq, Option.some.injEq] at hx; rw [← hx.1]; rfl
  split at h
  · rename_i ht; subst ht
    refine key _ (fun e => e.type = 4) ?_ e h
    refine bind _ _ _ fun _ => bind _ _ _ fun _ => bind _ _ _ fun _ => ?_
    intro b x r hx; simp only [Dec.pure, Prod.mk.injEq, Option.some.injEq] at hx; rw [← hx.1]; rfl
  split at h
  · rename_i ht; subst ht
    refine key _ (fun e => e.type = 5) ?_ e h
    refine bind _ _ _ fun _ => ?_
    intro b x r hx; simp only [Dec.pure, Prod.mk.injEq, Option.some.injEq] at hx; rw [← hx.1]; rfl
  · cases h

theorem decodeInt64C_nonneg {b : Bytes} {v : Int} {r : Bytes} (h : decodeInt64C b = (some v, r)) : 0 ≤ v := by
  exact (decodeInt64C_some h).1

theorem step_decoded (env : LogEnv) (st : LP) (p : Bytes) (e : LogEntry) (h : decodePayload p = some e) :
    st.step env p = st.stepEntry env e := by
  cases p with
  | nil => cases h
  | cons ty body =>
    have ht := decodeEntry_type h
    simp only [decodePayload] at h
    simp only [LP.step, LP.stepEntry, h, ht]
    rfl

theorem runPayloads_entries (env : LogEnv) (ps : List Bytes) : ∀ (st st' : LP), runPayloads env st ps = .ok st' →
    st'.status ≠ eINVALID_LOG → runEntries env st (ps.filterMap decodePayload) = .ok st' := by
  induction ps with
  | nil => intro st st' h _; exact h
  | cons p ps ih =>
    intro st st' h hn
    simp only [runPayloads] at h
    cases hd : decodePayload p with
    | some e =>
      rw [step_decoded env st p e hd] at h
      rw [List.filterMap_cons_some hd]
      simp only [runEntries]
      cases hs : st.stepEntry env e with
      | error f => rw [hs] at h; cases h
      | ok s1 =>
        simp only [hs] at h ⊢
        split at h
        · rename_i hi
          simp only [Except.ok.injEq] at h; subst h; exact absurd hi hn
        · rename_i hi
          rw [if_neg hi]
          exact ih s1 st' h hn
    | none =>
      rw [List.filterMap_cons_none hd]
      cases p with
      | nil => simp [LP.step] at h
      | cons ty body =>
        simp only [decodePayload] at hd
        simp only [LP.step, hd] at h
        by_cases hc : st.status = eINCONSISTENT_DIRECTORY ∧ ty ≠ 0
        · rw [if_pos hc] at h
          simp only at h
          split at h
          · rename_i hi; rw [hc.1] at hi; cases hi
          · exact ih st st' h hn
        · rw [if_neg hc] at h
          simp only [if_true] at h
          simp only [Except.ok.injEq] at h; subst h; exact absurd rfl hn

theorem runEntries_payloads (env : LogEnv) (es : List LogEntry) (hr : ∀ e ∈ es, e.InRange) : ∀ (st : LP),
    runPayloads env st (es.map LogEntry.payload) = runEntries env st es := by
  induction es with
  | nil => intro st; rfl
  | cons e es ih =>
    intro st
    simp only [List.map_cons, runPayloads, runEntries]
    rw [step_decoded env st _ e (decodePayload_payload e (hr e (by simp)))]
    have := ih (fun x hx => hr x (by simp [hx]))
    cases st.stepEntry env e with
    | error f => rfl
    | ok s1 => simp only [this]

theorem onResize_ok {env : LogEnv} (hpo : env.parseOnly = false) {st s1 : LP} {i size : Int}
    (h : st.onResize env i size = .ok s1) : s1.status = eINVALID_LOG ∨
      (s1.status = eOK ∧ s1.infos = st.infos ∧ s1.invalid = st.invalid) := by
  unfold LP.onResize at h
  simp only [hpo, Bool.false_eq_true, if_false] at h
  repeat' split at h
  all_goals (cases h <;> first | exact Or.inl rfl | exact Or.inr ⟨rfl, rfl, rfl⟩)

theorem onBlock_ok {env : LogEnv} (hpo : env.parseOnly = false) {st s1 : LP} {i off size : Int}
    (h : st.onBlock env i off size = .ok s1) : s1.status = eINVALID_LOG ∨
      (s1.status = eOK ∧ s1.invalid = st.invalid ∧
        ((i ∈ st.invalid ∧ s1.infos = st.infos) ∨
         (i ∉ st.invalid ∧ s1.infos = addChunk i ⟨off, off + size⟩ st.infos ∧
            ∃ info, st.find i = some info ∧ off ≤ off + size ∧ off + size ≤ info.fileSize))) := by
  unfold LP.onBlock at h
  simp only [hpo, Bool.false_eq_true, if_false] at h
  split at h
  · cases h; exact Or.inl rfl
  split at h
  · cases h; exact Or.inl rfl
  split at h
  · rename_i hc
    cases h; exact Or.inr ⟨rfl, rfl, Or.inl ⟨by simpa using hc, rfl⟩⟩
  rename_i hc
  split at h
  · cases h; exact Or.inl rfl
  rename_i info hf
  split at h
  · cases h
  split at h
  · cases h; exact Or.inl rfl
  rename_i hle
  unfold mkInterval at h
  by_cases hge : off + size ≥ off
  · rw [if_pos hge] at h
    cases h
    exact Or.inr ⟨rfl, rfl, Or.inr ⟨by simpa using hc, rfl, info, hf, hge, by omega⟩⟩
  · rw [if_neg hge] at h
    cases h

theorem settle_of {st : LP} (h : st.status ≠ eINCONSISTENT_DIRECTORY) : st.settle = st := by
  unfold LP.settle; rw [if_neg h]

/-! ### The invariant -/

/-- What the state says about the entries read so far. -/
structure LInv (env : LogEnv) (es : List LogEntry) (st : LP) : Prop where
  status : st.status = if inDoubt env es then eINCONSISTENT_DIRECTORY else eOK
  asc : Ascending st.infos
  infos : ∀ x, x ∈ st.infos ↔
    ∃ sz, Live env es x.seqId x.fileName sz x.chunks ∧ onDisk env x.fileName sz = some x.fileSize
  invalid : ∀ i, i ∈ st.invalid ↔ ∃ n sz ch, Live env es i n sz ch ∧ onDisk env n sz = none
  nodup : st.invalid.Nodup

theorem LInv.init (env : LogEnv) (ip : Bytes) : LInv env [] { senderIp := ip } where
  status := rfl
  asc := List.Pairwise.nil
  infos := by
    intro x; simp only [List.not_mem_nil, false_iff]
    rintro ⟨sz, h, _⟩; exact live_nil h
  invalid := by
    intro i; simp only [List.not_mem_nil, false_iff]
    rintro ⟨n, sz, ch, h, _⟩; exact live_nil h
  nodup := List.nodup_nil

/-- Nothing changes for an entry that ends no file, creates none and records nothing. -/
theorem live_same (env : LogEnv) (es : List LogEntry) (e : LogEntry) (he : ∀ i, e.endsFile env i = false)
    (hr : ∀ i, e.range i = []) (i : Int) (n : Bytes) (sz : Int) (ch : List Interval) :
    Live env (es ++ [e]) i n sz ch ↔ Live env es i n sz ch := by
  rw [live_snoc]
  constructor
  · rintro (⟨⟨ts, rfl⟩, _⟩ | ⟨_, ch', h, rfl⟩)
    · have := he i; simp [LogEntry.endsFile] at this
    · rw [hr i, List.append_nil]; exact h
  · intro h; exact Or.inr ⟨he i, ch, h, by rw [hr i, List.append_nil]⟩

/-- In doubt nothing is live. -/
theorem LInv.doubt {env : LogEnv} {es : List LogEntry} {st : LP} (hd : inDoubt env es = true)
    (hs : st.status = eINCONSISTENT_DIRECTORY) (h1 : st.infos = []) (h2 : st.invalid = []) : LInv env es st where
  status := by rw [hs, hd]; rfl
  asc := by rw [h1]; exact List.Pairwise.nil
  infos := by
    intro x; rw [h1]; simp only [List.not_mem_nil, false_iff]
    rintro ⟨sz, h, _⟩
    have := live_not_doubt env es _ _ _ _ h
    rw [hd] at this; cases this
  invalid := by
    intro i; rw [h2]; simp only [List.not_mem_nil, false_iff]
    rintro ⟨n, sz, ch, h, _⟩
    have := live_not_doubt env es _ _ _ _ h
    rw [hd] at this; cases this
  nodup := by rw [h2]; exact List.nodup_nil

theorem LInv.empty {env : LogEnv} {es : List LogEntry} {st : LP} (h : LInv env es st) (hd : inDoubt env es = true) :
    st.infos = [] ∧ st.invalid = [] := by
  constructor
  · rw [List.eq_nil_iff_forall_not_mem]
    intro x hx
    obtain ⟨sz, hl, _⟩ := (h.infos x).1 hx
    have := live_not_doubt env es _ _ _ _ hl
    rw [hd] at this; cases this
  · rw [List.eq_nil_iff_forall_not_mem]
    intro i hi
    obtain ⟨n, sz, ch, hl, _⟩ := (h.invalid i).1 hi
    have := live_not_doubt env es _ _ _ _ hl
    rw [hd] at this; cases this

theorem LInv.step {env : LogEnv} (hpo : env.parseOnly = false) {es : List LogEntry} {st st' : LP}
    (h : LInv env es st) (e : LogEntry) (hs : st.stepEntry env e = .ok st') (hn : st'.status ≠ eINVALID_LOG) :
    LInv env (es ++ [e]) st' := by
  have hst := h.status
  unfold LP.stepEntry at hs
  by_cases hd : inDoubt env es = true
  · -- in doubt
    rw [hd, if_pos rfl] at hst
    obtain ⟨hi0, hv0⟩ := h.empty hd
    by_cases ht : e.type = 0
    · rw [if_neg (by simp [ht])] at hs
      cases e with
      | header ts v r s c =>
        simp only [LP.process, LP.onHeader, hpo] at hs
        split at hs
        · simp only [LP.settle, Except.ok.injEq] at hs; rw [← hs] at hn; exact absurd rfl hn
        split at hs
        · simp only [LP.settle, Except.ok.injEq] at hs; rw [← hs] at hn; exact absurd rfl hn
        simp only [Bool.false_eq_true, if_false] at hs
        by_cases hm : env.recoveryId = r ∧ env.config = c
        · rw [if_neg (by simp [hm.1]), if_neg (by simp [hm.2])] at hs
          have hs' : st' = { st with senderIp := s, headerParsed := true, status := eOK } := by
            simp only [LP.settle, Except.ok.injEq] at hs; rw [← hs]; rfl
          subst hs'
          have hnr : (LogEntry.header ts v r s c).resets env = false := by
            simp [LogEntry.resets, hm.1, hm.2]
          have hl := live_same env es (.header ts v r s c) (fun i => hnr) (fun i => rfl)
          refine ⟨?_, h.asc, ?_, ?_, h.nodup⟩
          · rw [inDoubt_snoc, hnr]; simp [LogEntry.confirms, hm.1, hm.2]
          · intro x; simp only [hl]; exact h.infos x
          · intro i; simp only [hl]; exact h.invalid i
        · have hr : (LogEntry.header ts v r s c).resets env = true := by
            simp only [LogEntry.resets, decide_eq_true_eq]
            by_cases h1 : r = env.recoveryId
            · right; intro h2; exact hm ⟨h1.symm, h2.symm⟩
            · left; exact h1
          have hd' : inDoubt env (es ++ [.header ts v r s c]) = true := by rw [inDoubt_snoc, hr]; simp
          have hs' : st'.status = eINCONSISTENT_DIRECTORY ∧ st'.infos = [] ∧ st'.invalid = [] := by
            split at hs
            · simp only [LP.settle, Except.ok.injEq] at hs; rw [← hs]; simp
            split at hs
            · simp only [LP.settle, Except.ok.injEq] at hs; rw [← hs]; simp
            · rename_i h1 h2
              rw [ne_eq, Decidable.not_not] at h1 h2
              exact absurd ⟨h1, h2⟩ hm
          exact LInv.doubt hd' hs'.1 hs'.2.1 hs'.2.2
      | fileCreation ts n i s => simp [LogEntry.type] at ht
      | blockWrite ts i o s => simp [LogEntry.type] at ht
      | fileInvalidation ts i => simp [LogEntry.type] at ht
      | fileResize ts i s => simp [LogEntry.type] at ht
      | dirInvalidation ts => simp [LogEntry.type] at ht
    · rw [if_pos ⟨hst, ht⟩] at hs
      simp only [Except.ok.injEq] at hs
      subst hs
      have hd' : inDoubt env (es ++ [e]) = true := by
        rw [inDoubt_snoc]
        have : e.confirms env = false := by
          cases e <;> simp_all [LogEntry.confirms, LogEntry.type]
        rw [this, hd]; simp
      exact LInv.doubt hd' hst hi0 hv0
  · -- not in doubt
    have hd0 : inDoubt env es = false := by simpa using hd
    rw [hd0] at hst
    rw [if_neg (by rw [hst]; simp [eOK, eINCONSISTENT_DIRECTORY])] at hs
    cases e with
    | header ts v r s c =>
      simp only [LP.process, LP.onHeader, hpo] at hs
      split at hs
      · simp only [LP.settle, Except.ok.injEq] at hs; rw [← hs] at hn; exact absurd rfl hn
      split at hs
      · simp only [LP.settle, Except.ok.injEq] at hs; rw [← hs] at hn; exact absurd rfl hn
      simp only [Bool.false_eq_true, if_false] at hs
      by_cases hm : env.recoveryId = r ∧ env.config = c
      · rw [if_neg (by simp [hm.1]), if_neg (by simp [hm.2])] at hs
        have hs' : st' = { st with senderIp := s, headerParsed := true, status := eOK } := by
          simp only [LP.settle, Except.ok.injEq] at hs; rw [← hs]; rfl
        subst hs'
        have hnr : (LogEntry.header ts v r s c).resets env = false := by
          simp [LogEntry.resets, hm.1, hm.2]
        have hl := live_same env es (.header ts v r s c) (fun i => hnr) (fun i => rfl)
        refine ⟨?_, h.asc, ?_, ?_, h.nodup⟩
        · rw [inDoubt_snoc, hnr]; simp [LogEntry.confirms, hm.1, hm.2]
        · intro x; simp only [hl]; exact h.infos x
        · intro i; simp only [hl]; exact h.invalid i
      · have hr : (LogEntry.header ts v r s c).resets env = true := by
          simp only [LogEntry.resets, decide_eq_true_eq]
          by_cases h1 : r = env.recoveryId
          · right; intro h2; exact hm ⟨h1.symm, h2.symm⟩
          · left; exact h1
        have hd' : inDoubt env (es ++ [.header ts v r s c]) = true := by rw [inDoubt_snoc, hr]; simp
        have hs' : st'.status = eINCONSISTENT_DIRECTORY ∧ st'.infos = [] ∧ st'.invalid = [] := by
          split at hs
          · simp only [LP.settle, Except.ok.injEq] at hs; rw [← hs]; simp
          split at hs
          · simp only [LP.settle, Except.ok.injEq] at hs; rw [← hs]; simp
          · rename_i h1 h2
            rw [ne_eq, Decidable.not_not] at h1 h2
            exact absurd ⟨h1, h2⟩ hm
        exact LInv.doubt hd' hs'.1 hs'.2.1 hs'.2.2
    | dirInvalidation ts =>
      simp only [LP.process, LP.onDirInvalidation, hpo, LP.settle] at hs
      simp only [Bool.false_eq_true, if_false, if_true, Except.ok.injEq] at hs
      subst hs
      exact LInv.doubt (by rw [inDoubt_snoc]; simp [LogEntry.resets]) rfl rfl rfl
    | fileCreation ts n i size =>
      simp only [LP.process, LP.onCreation, hpo] at hs
      split at hs
      · simp only [LP.settle, Except.ok.injEq] at hs; rw [← hs] at hn; exact absurd rfl hn
      simp only [Bool.false_eq_true, if_false] at hs
      split at hs
      · simp only [LP.settle, Except.ok.injEq] at hs; rw [← hs] at hn; exact absurd rfl hn
      split at hs
      · simp only [LP.settle, Except.ok.injEq] at hs; rw [← hs] at hn; exact absurd rfl hn
      rename_i hfree
      simp only [Bool.or_eq_true, not_or, Option.not_isSome_iff_eq_none, List.contains_eq_mem,
        decide_eq_true_eq] at hfree
      obtain ⟨hf1, hf2⟩ := hfree
      rw [find_none] at hf1
      have hdn : inDoubt env (es ++ [.fileCreation ts n i size]) = false := by
        rw [inDoubt_snoc, hd0]; simp [LogEntry.resets, LogEntry.confirms]
      have hnl : ∀ n sz ch, ¬ Live env es i n sz ch := by
        intro n' sz ch hl
        cases ho : onDisk env n' sz with
        | none => exact hf2 ((h.invalid i).2 ⟨n', sz, ch, hl, ho⟩)
        | some d => exact hf1 ⟨i, n', d, ch⟩ ((h.infos ⟨i, n', d, ch⟩).2 ⟨sz, hl, ho⟩) rfl
      have hlive : ∀ j n' sz ch, Live env (es ++ [.fileCreation ts n i size]) j n' sz ch ↔
          (j = i ∧ n' = n ∧ sz = size ∧ ch = []) ∨ (j ≠ i ∧ Live env es j n' sz ch) := by
        intro j n' sz ch
        rw [live_snoc]
        constructor
        · rintro (⟨⟨ts', he⟩, _, rfl⟩ | ⟨h1, ch', h2, rfl⟩)
          · simp only [LogEntry.fileCreation.injEq] at he
            exact Or.inl ⟨he.2.2.1.symm, he.2.1.symm, he.2.2.2.symm, rfl⟩
          · simp only [LogEntry.endsFile, decide_eq_false_iff_not] at h1
            refine Or.inr ⟨fun hh => h1 hh.symm, ?_⟩
            simpa [LogEntry.range] using h2
        · rintro (⟨rfl, rfl, rfl, rfl⟩ | ⟨h1, h2⟩)
          · exact Or.inl ⟨⟨ts, rfl⟩, hd0, rfl⟩
          · refine Or.inr ⟨?_, ch, h2, by simp [LogEntry.range]⟩
            simp only [LogEntry.endsFile, decide_eq_false_iff_not]; exact fun hh => h1 hh.symm
      have hother : ∀ x, (∃ sz, (x : FileChunksInfo).seqId ≠ i ∧ Live env es x.seqId x.fileName sz x.chunks ∧
          onDisk env x.fileName sz = some x.fileSize) ↔ x ∈ st.infos := by
        intro x
        rw [h.infos x]
        constructor
        · rintro ⟨sz, _, h1, h2⟩; exact ⟨sz, h1, h2⟩
        · rintro ⟨sz, h1, h2⟩
          exact ⟨sz, fun hc => hnl _ _ _ (hc ▸ h1), h1, h2⟩
      have hinv : ∀ j, (∃ n' sz ch, j ≠ i ∧ Live env es j n' sz ch ∧ onDisk env n' sz = none) ↔ j ∈ st.invalid := by
        intro j
        rw [h.invalid j]
        constructor
        · rintro ⟨n', sz, ch, _, h1, h2⟩; exact ⟨n', sz, ch, h1, h2⟩
        · rintro ⟨n', sz, ch, h1, h2⟩
          exact ⟨n', sz, ch, fun hc => hnl _ _ _ (hc ▸ h1), h1, h2⟩
      cases ho : onDisk env n size with
      | none =>
        have hs' : st' = { st with invalid := insId i st.invalid, status := eOK } := by
          unfold onDisk at ho
          split at ho
          · rename_i hdk
            simp only [hdk, LP.settle, Except.ok.injEq] at hs; rw [← hs]; rfl
          · rename_i d hdk
            split at ho
            · rename_i hc
              simp only [hdk, hc, if_true, LP.settle, Except.ok.injEq] at hs; rw [← hs]; rfl
            · cases ho
        subst hs'
        refine ⟨by rw [hdn]; rfl, h.asc, ?_, ?_, nodup_insId i st.invalid hf2 h.nodup⟩
        · intro x
          simp only [hlive]
          constructor
          · intro hx
            obtain ⟨sz, h1, h2, h3⟩ := (hother x).2 hx
            exact ⟨sz, Or.inr ⟨h1, h2⟩, h3⟩
          · rintro ⟨sz, (⟨_, h2, h3, _⟩ | ⟨h1, h2⟩), h4⟩
            · rw [h2, h3, ho] at h4; cases h4
            · exact (hother x).1 ⟨sz, h1, h2, h4⟩
        · intro j
          simp only [hlive, mem_insId]
          constructor
          · rintro (rfl | hj)
            · exact ⟨n, size, [], Or.inl ⟨rfl, rfl, rfl, rfl⟩, ho⟩
            · obtain ⟨n', sz, ch, h1, h2, h3⟩ := (hinv j).2 hj
              exact ⟨n', sz, ch, Or.inr ⟨h1, h2⟩, h3⟩
          · rintro ⟨n', sz, ch, (⟨h1, _⟩ | ⟨h1, h2⟩), h3⟩
            · exact Or.inl h1
            · exact Or.inr ((hinv j).1 ⟨n', sz, ch, h1, h2, h3⟩)
      | some d =>
        have hs' : st'.status = eOK ∧ st'.infos = insInfo ⟨i, n, d, []⟩ st.infos ∧ st'.invalid = st.invalid := by
          unfold onDisk at ho
          split at ho
          · cases ho
          · rename_i d' hdk
            split at ho
            · cases ho
            · rename_i hc
              simp only [Option.some.injEq] at ho
              subst ho
              simp only [hdk, if_neg hc, LP.settle, Except.ok.injEq] at hs
              rw [← hs]; exact ⟨rfl, rfl, rfl⟩
        refine ⟨by rw [hdn]; exact hs'.1, ?_, ?_, ?_, by rw [hs'.2.2]; exact h.nodup⟩
        · rw [hs'.2.1]
          exact ascending_ins _ _ h.asc (fun y hy => hf1 y hy)
        · intro x
          simp only [hlive, hs'.2.1, mem_insInfo]
          constructor
          · rintro (rfl | hx)
            · exact ⟨size, Or.inl ⟨rfl, rfl, rfl, rfl⟩, ho⟩
            · obtain ⟨sz, h1, h2, h3⟩ := (hother x).2 hx
              exact ⟨sz, Or.inr ⟨h1, h2⟩, h3⟩
          · rintro ⟨sz, (⟨h1, h2, h3, h5⟩ | ⟨h1, h2⟩), h4⟩
            · left
              rw [h2, h3, ho] at h4
              simp only [Option.some.injEq] at h4
              cases x; simp_all
            · exact Or.inr ((hother x).1 ⟨sz, h1, h2, h4⟩)
        · intro j
          simp only [hlive, hs'.2.2]
          constructor
          · intro hj
            obtain ⟨n', sz, ch, h1, h2, h3⟩ := (hinv j).2 hj
            exact ⟨n', sz, ch, Or.inr ⟨h1, h2⟩, h3⟩
          · rintro ⟨n', sz, ch, (⟨_, h2, h3, _⟩ | ⟨h1, h2⟩), h4⟩
            · rw [h2, h3, ho] at h4; cases h4
            · exact (hinv j).1 ⟨n', sz, ch, h1, h2, h4⟩
    | fileInvalidation ts i =>
      simp only [LP.process, LP.onInvalidation, hpo] at hs
      split at hs
      · simp only [LP.settle, Except.ok.injEq] at hs; rw [← hs] at hn; exact absurd rfl hn
      simp only [Bool.false_eq_true, if_false] at hs
      split at hs
      · simp only [LP.settle, Except.ok.injEq] at hs; rw [← hs] at hn; exact absurd rfl hn
      split at hs
      · simp only [LP.settle, Except.ok.injEq] at hs; rw [← hs] at hn; exact absurd rfl hn
      have hs' : st'.status = eOK ∧ st'.infos = st.infos.filter (fun x => decide (x.seqId ≠ i)) ∧
          st'.invalid = st.invalid.filter (fun x => decide (x ≠ i)) := by
        simp only [LP.settle, Except.ok.injEq] at hs; rw [← hs]; exact ⟨rfl, rfl, rfl⟩
      have hlive : ∀ j n' sz ch, Live env (es ++ [.fileInvalidation ts i]) j n' sz ch ↔
          (j ≠ i ∧ Live env es j n' sz ch) := by
        intro j n' sz ch
        rw [live_snoc]
        constructor
        · rintro (⟨⟨ts', he⟩, _, rfl⟩ | ⟨h1, ch', h2, rfl⟩)
          · cases he
          · simp only [LogEntry.endsFile, decide_eq_false_iff_not] at h1
            exact ⟨fun hh => h1 hh.symm, by simpa [LogEntry.range] using h2⟩
        · rintro ⟨h1, h2⟩
          refine Or.inr ⟨?_, ch, h2, by simp [LogEntry.range]⟩
          simp only [LogEntry.endsFile, decide_eq_false_iff_not]; exact fun hh => h1 hh.symm
      refine ⟨?_, ?_, ?_, ?_, by rw [hs'.2.2]; exact h.nodup.filter _⟩
      · rw [inDoubt_snoc, hd0]; simpa [LogEntry.resets, LogEntry.confirms] using hs'.1
      · rw [hs'.2.1]; exact h.asc.filter _
      · intro x
        rw [hs'.2.1]
        simp only [hlive, List.mem_filter, decide_eq_true_eq, h.infos x]
        constructor
        · rintro ⟨⟨sz, h1, h2⟩, h3⟩; exact ⟨sz, ⟨h3, h1⟩, h2⟩
        · rintro ⟨sz, ⟨h3, h1⟩, h2⟩; exact ⟨⟨sz, h1, h2⟩, h3⟩
      · intro j
        rw [hs'.2.2]
        simp only [hlive, List.mem_filter, decide_eq_true_eq, h.invalid j]
        constructor
        · rintro ⟨⟨n', sz, ch, h1, h2⟩, h3⟩; exact ⟨n', sz, ch, ⟨h3, h1⟩, h2⟩
        · rintro ⟨n', sz, ch, ⟨h3, h1⟩, h2⟩; exact ⟨⟨n', sz, ch, h1, h2⟩, h3⟩
    | fileResize ts i size =>
      have hl := live_same env es (.fileResize ts i size) (fun i => rfl) (fun i => rfl)
      have hs' : st'.status = eOK ∧ st'.infos = st.infos ∧ st'.invalid = st.invalid := by
        simp only [LP.process] at hs
        cases hp : st.onResize env i size with
        | error f => rw [hp] at hs; cases hs
        | ok s1 =>
          rw [hp] at hs
          simp only [Except.ok.injEq] at hs
          rcases onResize_ok hpo hp with h1 | ⟨h1, h2, h3⟩
          · rw [settle_of (by rw [h1]; decide)] at hs
            rw [← hs] at hn; exact absurd h1 hn
          · rw [settle_of (by rw [h1]; decide)] at hs
            rw [← hs]; exact ⟨h1, h2, h3⟩
      refine ⟨?_, ?_, ?_, ?_, by rw [hs'.2.2]; exact h.nodup⟩
      · rw [inDoubt_snoc, hd0]; simpa [LogEntry.resets, LogEntry.confirms] using hs'.1
      · rw [hs'.2.1]; exact h.asc
      · intro x; rw [hs'.2.1]; simp only [hl]; exact h.infos x
      · intro j; rw [hs'.2.2]; simp only [hl]; exact h.invalid j
    | blockWrite ts i off size =>
      have hlive : ∀ j n' sz ch, Live env (es ++ [.blockWrite ts i off size]) j n' sz ch ↔
          (j ≠ i ∧ Live env es j n' sz ch) ∨ (j = i ∧ ∃ ch', Live env es j n' sz ch' ∧ ch = ch' ++ [⟨off, off + size⟩]) := by
        intro j n' sz ch
        rw [live_snoc]
        constructor
        · rintro (⟨⟨ts', he⟩, _, rfl⟩ | ⟨h1, ch', h2, rfl⟩)
          · cases he
          · by_cases hj : j = i
            · exact Or.inr ⟨hj, ch', h2, by simp [LogEntry.range, hj]⟩
            · refine Or.inl ⟨hj, ?_⟩
              have : (LogEntry.blockWrite ts i off size).range j = [] := by
                simp only [LogEntry.range]; rw [if_neg (fun hh => hj hh.symm)]
              rwa [this, List.append_nil]
        · rintro (⟨h1, h2⟩ | ⟨rfl, ch', h2, rfl⟩)
          · refine Or.inr ⟨rfl, ch, h2, ?_⟩
            simp only [LogEntry.range]; rw [if_neg (fun hh => h1 hh.symm), List.append_nil]
          · exact Or.inr ⟨rfl, ch', h2, by simp [LogEntry.range]⟩
      have hdn : inDoubt env (es ++ [.blockWrite ts i off size]) = false := by
        rw [inDoubt_snoc, hd0]; simp [LogEntry.resets, LogEntry.confirms]
      have hinv : ∀ j, j ∈ st.invalid ↔ ∃ n' sz ch, Live env (es ++ [.blockWrite ts i off size]) j n' sz ch ∧
          onDisk env n' sz = none := by
        intro j
        rw [h.invalid j]
        simp only [hlive]
        constructor
        · rintro ⟨n', sz, ch, h1, h2⟩
          by_cases hj : j = i
          · exact ⟨n', sz, _, Or.inr ⟨hj, ch, h1, rfl⟩, h2⟩
          · exact ⟨n', sz, ch, Or.inl ⟨hj, h1⟩, h2⟩
        · rintro ⟨n', sz, ch, (⟨_, h1⟩ | ⟨_, ch', h1, _⟩), h2⟩
          · exact ⟨n', sz, ch, h1, h2⟩
          · exact ⟨n', sz, ch', h1, h2⟩
      have hblk : st'.status = eOK ∧ st'.invalid = st.invalid ∧
          ((i ∈ st.invalid ∧ st'.infos = st.infos) ∨
           (i ∉ st.invalid ∧ st'.infos = addChunk i ⟨off, off + size⟩ st.infos)) := by
        simp only [LP.process] at hs
        cases hp : st.onBlock env i off size with
        | error f => rw [hp] at hs; cases hs
        | ok s1 =>
          rw [hp] at hs
          simp only [Except.ok.injEq] at hs
          rcases onBlock_ok hpo hp with h1 | ⟨h1, h2, h3⟩
          · rw [settle_of (by rw [h1]; decide)] at hs
            rw [← hs] at hn; exact absurd h1 hn
          · rw [settle_of (by rw [h1]; decide)] at hs
            rw [← hs]
            refine ⟨h1, h2, ?_⟩
            rcases h3 with h3 | ⟨h3, h4, _⟩
            · exact Or.inl h3
            · exact Or.inr ⟨h3, h4⟩
      obtain ⟨hb1, hb2, hb3⟩ := hblk
      rcases hb3 with ⟨hmem, hb3⟩ | ⟨hmem, hb3⟩
      · -- ignored
        have hs' : st'.status = eOK ∧ st'.infos = st.infos ∧ st'.invalid = st.invalid := ⟨hb1, hb3, hb2⟩
        obtain ⟨n0, sz0, ch0, hl0, ho0⟩ := (h.invalid i).1 hmem
        refine ⟨by rw [hdn]; exact hs'.1, by rw [hs'.2.1]; exact h.asc, ?_, ?_, by rw [hs'.2.2]; exact h.nodup⟩
        · intro x
          rw [hs'.2.1, h.infos x]
          simp only [hlive]
          constructor
          · rintro ⟨sz, h1, h2⟩
            refine ⟨sz, Or.inl ⟨?_, h1⟩, h2⟩
            intro hc
            obtain ⟨e1, e2, _⟩ := live_unique env es _ _ _ _ _ _ _ hl0 (hc ▸ h1)
            rw [← e1, ← e2, ho0] at h2; cases h2
          · rintro ⟨sz, (⟨_, h1⟩ | ⟨hc, ch', h1, _⟩), h2⟩
            · exact ⟨sz, h1, h2⟩
            · obtain ⟨e1, e2, _⟩ := live_unique env es _ _ _ _ _ _ _ hl0 (hc ▸ h1)
              rw [← e1, ← e2, ho0] at h2; cases h2
        · intro j; rw [hs'.2.2]; exact hinv j
      · have hs' : st'.status = eOK ∧ st'.infos = addChunk i ⟨off, off + size⟩ st.infos ∧ st'.invalid = st.invalid :=
          ⟨hb1, hb3, hb2⟩
        refine ⟨by rw [hdn]; exact hs'.1, by rw [hs'.2.1]; exact ascending_addChunk _ _ _ h.asc, ?_, ?_,
          by rw [hs'.2.2]; exact h.nodup⟩
        · intro x
          rw [hs'.2.1, mem_addChunk]
          simp only [hlive]
          constructor
          · rintro (⟨h1, h2⟩ | ⟨y, hy, h1, rfl⟩)
            · obtain ⟨sz, h3, h4⟩ := (h.infos x).1 h1
              exact ⟨sz, Or.inl ⟨h2, h3⟩, h4⟩
            · obtain ⟨sz, h3, h4⟩ := (h.infos y).1 hy
              exact ⟨sz, Or.inr ⟨h1, y.chunks, h3, rfl⟩, h4⟩
          · rintro ⟨sz, (⟨h1, h2⟩ | ⟨h1, ch', h2, h3⟩), h4⟩
            · exact Or.inl ⟨(h.infos x).2 ⟨sz, h2, h4⟩, h1⟩
            · refine Or.inr ⟨⟨x.seqId, x.fileName, x.fileSize, ch'⟩, (h.infos _).2 ⟨sz, h2, h4⟩, h1, ?_⟩
              cases x; simp_all
        · intro j; rw [hs'.2.2]; exact hinv j

theorem LInv.run {env : LogEnv} (hpo : env.parseOnly = false) (es : List LogEntry) : ∀ (pre : List LogEntry) (st st' : LP),
    LInv env pre st → runEntries env st es = .ok st' → st'.status ≠ eINVALID_LOG → LInv env (pre ++ es) st' := by
  induction es with
  | nil =>
    intro pre st st' h hr _
    simp only [runEntries, Except.ok.injEq] at hr
    subst hr
    rwa [List.append_nil]
  | cons e es ih =>
    intro pre st st' h hr hn
    simp only [runEntries] at hr
    cases hs : st.stepEntry env e with
    | error f => simp only [hs] at hr; cases hr
    | ok s1 =>
      simp only [hs] at hr
      split at hr
      · rename_i hi
        simp only [Except.ok.injEq] at hr; subst hr; exact absurd hi hn
      · rename_i hi
        have := ih (pre ++ [e]) s1 st' (h.step hpo e hs hi) hr hn
        rwa [List.append_assoc] at this

/-! ### Bounds -/

/-- Numbers as the decoder delivers them. -/
def LogEntry.NonNeg : LogEntry → Prop
  | .fileCreation _ _ i s => I63 i ∧ I63 s
  | .blockWrite _ i o s => I63 i ∧ I63 o ∧ I63 s
  | _ => True

theorem inRange_nonNeg (e : LogEntry) (h : e.InRange) : e.NonNeg := by
  cases e <;> simp_all [LogEntry.InRange, LogEntry.NonNeg]

theorem decodeAll_some {α : Type} {d : Dec α} {b : Bytes} {a : α} (h : decodeAll d b = some a) :
    ∃ r, d b = (some a, r) := by
  unfold decodeAll at h
  split at h
  · rename_i h1; simp only [Option.some.injEq] at h; subst h; exact ⟨_, h1⟩
  · cases h

theorem decBind_some {α β : Type} {d : Dec α} {k : α → Dec β} {b : Bytes} {x : β} {r : Bytes}
    (h : d.bind k b = (some x, r)) : ∃ a b', d b = (some a, b') ∧ k a b' = (some x, r) := by
  unfold Dec.bind at h
  split at h
  · cases h
  · rename_i a b' h1; exact ⟨a, b', h1, h⟩

theorem decodePayload_nonNeg {p : Bytes} {e : LogEntry} (h : decodePayload p = some e) : e.NonNeg := by
  cases p with
  | nil => cases h
  | cons ty body =>
    have ht := decodeEntry_type h
    simp only [decodePayload] at h
    cases e with
    | header => trivial
    | fileInvalidation => trivial
    | fileResize => trivial
    | dirInvalidation => trivial
    | fileCreation ts n i s =>
      simp only [LogEntry.type] at ht
      subst ht
      have h2 := decodeAll_some (show decodeAll (decodeInt64C.bind fun ts => decodeString.bind fun n =>
        decodeInt64C.bind fun i => decodeInt64C.bind fun s => Dec.pure (LogEntry.fileCreation ts n i s)) body = _ from h)
      obtain ⟨r, h2⟩ := h2
      obtain ⟨_, _, _, h2⟩ := decBind_some h2
      obtain ⟨_, _, _, h2⟩ := decBind_some h2
      obtain ⟨_, _, h3, h2⟩ := decBind_some h2
      obtain ⟨_, _, h4, h2⟩ := decBind_some h2
      simp only [Dec.pure, Prod.mk.injEq, Option.some.injEq, LogEntry.fileCreation.injEq] at h2
      obtain ⟨⟨_, _, rfl, rfl⟩, _⟩ := h2
      exact ⟨decodeInt64C_some h3, decodeInt64C_some h4⟩
    | blockWrite ts i o s =>
      simp only [LogEntry.type] at ht
      subst ht
      have h2 := decodeAll_some (show decodeAll (decodeInt64C.bind fun ts => decodeInt64C.bind fun i =>
        decodeInt64C.bind fun o => decodeInt64C.bind fun s => Dec.pure (LogEntry.blockWrite ts i o s)) body = _ from h)
      obtain ⟨r, h2⟩ := h2
      obtain ⟨_, _, _, h2⟩ := decBind_some h2
      obtain ⟨_, _, h5, h2⟩ := decBind_some h2
      obtain ⟨_, _, h3, h2⟩ := decBind_some h2
      obtain ⟨_, _, h4, h2⟩ := decBind_some h2
      simp only [Dec.pure, Prod.mk.injEq, Option.some.injEq, LogEntry.blockWrite.injEq] at h2
      obtain ⟨⟨_, rfl, rfl, rfl⟩, _⟩ := h2
      exact ⟨decodeInt64C_some h5, decodeInt64C_some h3, decodeInt64C_some h4⟩

/-- Every recorded range lies within the file as it is on disk. -/
def LBounds (env : LogEnv) (st : LP) : Prop :=
  (∀ x ∈ st.infos, I63 x.seqId ∧ env.disk x.fileName = some x.fileSize ∧
    ∀ c ∈ x.chunks, 0 ≤ c.start ∧ c.start ≤ c.stop ∧ c.stop ≤ x.fileSize) ∧
  ∀ i ∈ st.invalid, I63 i

theorem LBounds.settle {env : LogEnv} {st : LP} (h : LBounds env st) : LBounds env st.settle := by
  unfold LP.settle
  split
  · exact ⟨fun x hx => by simp at hx, fun x hx => by simp at hx⟩
  · exact h

theorem LBounds.step {env : LogEnv} (hpo : env.parseOnly = false) {st st' : LP} (hb : LBounds env st)
    (hasc : Ascending st.infos)
    (e : LogEntry) (he : e.NonNeg) (hs : st.stepEntry env e = .ok st') (hn : st'.status ≠ eINVALID_LOG) :
    LBounds env st' := by
  unfold LP.stepEntry at hs
  split at hs
  · cases hs; exact hb
  cases hp : st.process env e with
  | error f => rw [hp] at hs; cases hs
  | ok s1 =>
    rw [hp] at hs
    simp only [Except.ok.injEq] at hs
    subst hs
    refine LBounds.settle ?_
    have hn1 : s1.status ≠ eINVALID_LOG := by
      intro hc
      rw [settle_of (by rw [hc]; decide)] at hn
      exact hn hc
    cases e with
    | header ts v r s c =>
      simp only [LP.process, LP.onHeader, Except.ok.injEq] at hp
      subst hp
      repeat' split
      all_goals exact hb
    | dirInvalidation ts =>
      simp only [LP.process, LP.onDirInvalidation, Except.ok.injEq] at hp
      subst hp
      repeat' split
      all_goals exact hb
    | fileInvalidation ts i =>
      simp only [LP.process, LP.onInvalidation, Except.ok.injEq] at hp
      subst hp
      repeat' split
      all_goals first | exact hb | skip
      exact ⟨fun x hx => hb.1 x (List.mem_filter.1 hx).1, fun x hx => hb.2 x (List.mem_filter.1 hx).1⟩
    | fileResize ts i s =>
      simp only [LP.process] at hp
      rcases onResize_ok hpo hp with h1 | ⟨_, h2, h3⟩
      · exact absurd h1 hn1
      · unfold LBounds; rw [h2, h3]; exact hb
    | fileCreation ts n i s =>
      simp only [LP.process, LP.onCreation, Except.ok.injEq] at hp
      simp only [LogEntry.NonNeg] at he
      subst hp
      have hinv : ∀ st2 : LP, st2.infos = st.infos → st2.invalid = insId i st.invalid → LBounds env st2 := by
        intro st2 h1 h2
        unfold LBounds
        rw [h1, h2]
        refine ⟨hb.1, ?_⟩
        intro j hj
        rcases (mem_insId i j st.invalid).1 hj with rfl | hj
        · exact he.1
        · exact hb.2 j hj
      split
      · exact hb
      split
      · exact hb
      split
      · exact hb
      split
      · exact hb
      split
      · exact hinv _ rfl rfl
      · rename_i d hd
        split
        · exact hinv _ rfl rfl
        · refine ⟨?_, hb.2⟩
          intro x hx
          rcases (mem_insInfo _ x st.infos).1 hx with rfl | hx
          · exact ⟨he.1, hd, fun c hc => by cases hc⟩
          · exact hb.1 x hx
    | blockWrite ts i o s =>
      simp only [LP.process] at hp
      simp only [LogEntry.NonNeg] at he
      rcases onBlock_ok hpo hp with h1 | ⟨_, h2, h3⟩
      · exact absurd h1 hn1
      · unfold LBounds
        rw [h2]
        refine ⟨?_, hb.2⟩
        rcases h3 with ⟨_, h3⟩ | ⟨_, h3, info, hf, h4, h5⟩
        · rw [h3]; exact hb.1
        · rw [h3]
          obtain ⟨hfm, hfi⟩ := find_some hf
          intro x hx
          rcases (mem_addChunk i _ st.infos x).1 hx with ⟨hx, _⟩ | ⟨y, hy, hyi, rfl⟩
          · exact hb.1 x hx
          · obtain ⟨b1, b2, b3⟩ := hb.1 y hy
            refine ⟨b1, b2, ?_⟩
            intro c hc
            rcases List.mem_append.1 hc with hc | hc
            · exact b3 c hc
            · simp only [List.mem_singleton] at hc
              subst hc
              have hyinfo : y = info := by
                rcases List.pairwise_iff_getElem.1 hasc with hpw
                obtain ⟨a, ha, rfl⟩ := List.mem_iff_getElem.1 hy
                obtain ⟨b, hb', rfl⟩ := List.mem_iff_getElem.1 hfm
                rcases Nat.lt_trichotomy a b with hab | hab | hab
                · have := hpw a b ha hb' hab; omega
                · subst hab; rfl
                · have := hpw b a hb' ha hab; omega
              exact ⟨he.2.1.1, h4, hyinfo ▸ h5⟩

theorem LBounds.run {env : LogEnv} (hpo : env.parseOnly = false) (es : List LogEntry) (hnn : ∀ e ∈ es, e.NonNeg) :
    ∀ (pre : List LogEntry) (st st' : LP), LInv env pre st → LBounds env st → runEntries env st es = .ok st' →
      st'.status ≠ eINVALID_LOG → LBounds env st' := by
  induction es with
  | nil =>
    intro pre st st' _ h hr _
    simp only [runEntries, Except.ok.injEq] at hr
    subst hr
    exact h
  | cons e es ih =>
    intro pre st st' h hb hr hn
    simp only [runEntries] at hr
    cases hs : st.stepEntry env e with
    | error f => simp only [hs] at hr; cases hr
    | ok s1 =>
      simp only [hs] at hr
      split at hr
      · rename_i hi
        simp only [Except.ok.injEq] at hr; subst hr; exact absurd hi hn
      · rename_i hi
        exact ih (fun x hx => hnn x (by simp [hx])) (pre ++ [e]) s1 st' (h.step hpo e hs hi)
          (hb.step hpo h.asc e (hnn e (by simp)) hs hi) hr hn

end Wdt
