import Verif.Lemmas.LogSession
/-
Invariant of the sessions of a receiver: what the log says is backed by what happened.
-/
namespace Wdt

/-- The entry ends what was said about file `i` in a log last headed by `τ`. -/
def Breaks (τ : Tag) (i : Int) : LogEntry → Prop
  | .header _ _ r _ c => r ≠ τ.rid ∨ c ≠ τ.cfg
  | .dirInvalidation _ => True
  | .fileCreation _ _ j _ => j = i
  | .fileInvalidation _ j => j = i
  | _ => False

/-- Same transfer; with `v`, also the same sender address. -/
def Tag.same (v : Bool) (τ τ' : Tag) : Prop := τ.rid = τ'.rid ∧ τ.cfg = τ'.cfg ∧ (v = true → τ.ip = τ'.ip)

theorem Tag.same_refl (v : Bool) (τ : Tag) : τ.same v τ := ⟨rfl, rfl, fun _ => rfl⟩

theorem Tag.same_symm {v : Bool} {τ τ' : Tag} (h : τ.same v τ') : τ'.same v τ := ⟨h.1.symm, h.2.1.symm, fun hv => (h.2.2 hv).symm⟩

theorem Tag.same_trans {v : Bool} {a b c : Tag} (h : a.same v b) (h' : b.same v c) : a.same v c :=
  ⟨h.1.trans h'.1, h.2.1.trans h'.2.1, fun hv => (h.2.2 hv).trans (h'.2.2 hv)⟩

theorem breaks_ends {env : LogEnv} {τ : Tag} (h1 : τ.rid = env.recoveryId) (h2 : τ.cfg = env.config) {i : Int} {e : LogEntry}
    (h : Breaks τ i e) : e.endsFile env i = true := by
  cases e <;> simp_all [Breaks, LogEntry.endsFile, LogEntry.resets]

/-- What an entry about the creation of a file, last headed by `τ0` and followed by `post`,
stands for: such an entry was handed over in a session of the same kind, later headers
are of the same kind, every recorded position was handed over since, and (with `g`) all
data written since was written in that session or in a session of the same kind whose
sender was resuming. -/
def Backed (v g : Bool) (tr : List TItem) (τ0 : Tag) (name : Bytes) (i : Int) (post : List LogEntry) : Prop :=
  ∃ a τs ns ts sz b, tr = a ++ .added (.fileCreation ts name i sz) τs ns :: b ∧ τ0.same v τs ∧
    (∀ ts w r s c, LogEntry.header ts w r s c ∈ post → τ0.same v ⟨r, c, s⟩) ∧
    (∀ ts o z, LogEntry.blockWrite ts i o z ∈ post → ∀ p, o ≤ p → p < o + z →
      ∃ ts' o' z' τ' n', TItem.added (.blockWrite ts' i o' z') τ' n' ∈ b ∧ τ0.same v τ' ∧ o' ≤ p ∧ p < o' + z') ∧
    (g = true → ∀ τd nd res, TItem.data τd nd res ∈ b → nd = ns ∨ (τ0.same v τd ∧ res = true))

/-- Every creation entry is headed and, unless a later entry ends it, backed. -/
def QOk (v g : Bool) (es : List LogEntry) (tr : List TItem) : Prop :=
  ∀ pre ts name i sz post, es = pre ++ .fileCreation ts name i sz :: post → ∃ τ0, lastHdr pre = some τ0 ∧
    ((∃ e ∈ post, Breaks τ0 i e) ∨ Backed v g tr τ0 name i post)

/-- No header lacks the address, and none is too long. -/
def HdrOk (es : List LogEntry) : Prop :=
  ∀ ts w r s c, LogEntry.header ts w r s c ∈ es → s ≠ [] ∧ r.length + s.length ≤ 4095

/-- Creation of a file or block of a file. -/
def LogEntry.isAdd : LogEntry → Bool
  | .fileCreation .. => true
  | .blockWrite .. => true
  | _ => false

/-- Neither a header nor an invalidation of the directory. -/
def LogEntry.plain : LogEntry → Bool
  | .header .. => false
  | .dirInvalidation .. => false
  | _ => true

/-- The entries handed over. -/
def addsOf (tr : List TItem) : List LogEntry :=
  tr.filterMap fun it => match it with | .added e _ _ => some e | .data .. => none

theorem addsOf_append (a b : List TItem) : addsOf (a ++ b) = addsOf a ++ addsOf b := List.filterMap_append ..

theorem mem_addsOf {tr : List TItem} {e : LogEntry} (h : e ∈ addsOf tr) : ∃ τ n, TItem.added e τ n ∈ tr := by
  obtain ⟨it, h1, h2⟩ := List.mem_filterMap.1 h
  cases it with
  | added e' τ n => simp only [Option.some.injEq] at h2; subst h2; exact ⟨τ, n, h1⟩
  | data τ n r => simp at h2

theorem split_adds {c : LogEntry} {l2 : List LogEntry} : ∀ (tr : List TItem) (l1 : List LogEntry),
    (l1 ++ c :: l2).Sublist (addsOf tr) → ∃ a τ n b, tr = a ++ .added c τ n :: b ∧ l2.Sublist (addsOf b) := by
  intro tr
  induction tr with
  | nil => intro l1 h; simp [addsOf] at h
  | cons it tr ih =>
    intro l1 h
    cases it with
    | data τ n r =>
      have : addsOf (.data τ n r :: tr) = addsOf tr := rfl
      rw [this] at h
      obtain ⟨a, τ', n', b, h1, h2⟩ := ih l1 h
      exact ⟨.data τ n r :: a, τ', n', b, by rw [h1]; rfl, h2⟩
    | added e τ n =>
      have : addsOf (.added e τ n :: tr) = e :: addsOf tr := rfl
      rw [this] at h
      have hrec : ∀ l1, (l1 ++ c :: l2).Sublist (addsOf tr) →
          ∃ a τ' n' b, TItem.added e τ n :: tr = a ++ .added c τ' n' :: b ∧ l2.Sublist (addsOf b) := by
        intro l1 h
        obtain ⟨a, τ', n', b, h1, h2⟩ := ih l1 h
        exact ⟨.added e τ n :: a, τ', n', b, by rw [h1]; rfl, h2⟩
      cases l1 with
      | nil =>
        rw [List.nil_append] at h
        cases h with
        | cons _ h => exact hrec [] h
        | cons_cons _ h => exact ⟨[], τ, n, tr, rfl, h⟩
      | cons x l1 =>
        rw [List.cons_append] at h
        cases h with
        | cons _ h => exact hrec (x :: l1) h
        | cons_cons _ h => exact hrec l1 h

/-- A position in a concatenation lies in one of the parts. -/
theorem split_append {α : Type} {a b pre post : List α} {x : α} (h : a ++ b = pre ++ x :: post) :
    (∃ p, a = pre ++ x :: p ∧ post = p ++ b) ∨ (∃ p, pre = a ++ p ∧ b = p ++ x :: post) := by
  rcases List.append_eq_append_iff.1 h with ⟨p, h1, h2⟩ | ⟨p, h1, h2⟩
  · exact Or.inr ⟨p, h1, h2⟩
  · cases p with
    | nil => exact Or.inr ⟨[], by simpa using h1.symm, by simpa using h2.symm⟩
    | cons y p =>
      rw [List.cons_append, List.cons.injEq] at h2
      obtain ⟨rfl, rfl⟩ := h2
      exact Or.inl ⟨p, h1, rfl⟩

/-- Entries that create and record nothing and are no headers change nothing. -/
theorem QOk.append_plain {v g : Bool} {es : List LogEntry} {tr : List TItem} (h : QOk v g es tr) {l : List LogEntry}
    (hl : ∀ e ∈ l, ∃ ts i, e = LogEntry.fileInvalidation ts i) : QOk v g (es ++ l) tr := by
  intro pre ts name i sz post he
  rcases split_append he with ⟨p, h1, h2⟩ | ⟨p, h1, h2⟩
  · obtain ⟨τ0, k1, k2⟩ := h pre ts name i sz p h1
    refine ⟨τ0, k1, ?_⟩
    rcases k2 with ⟨e, k2, k3⟩ | ⟨a, τs, ns, ts', sz', b, b1, b2, b3, b4, b5⟩
    · exact Or.inl ⟨e, by rw [h2]; simp [k2], k3⟩
    · refine Or.inr ⟨a, τs, ns, ts', sz', b, b1, b2, ?_, ?_, b5⟩
      · intro ts w r s c hm
        rw [h2] at hm
        rcases List.mem_append.1 hm with hm | hm
        · exact b3 _ _ _ _ _ hm
        · obtain ⟨_, _, hx⟩ := hl _ hm; cases hx
      · intro ts o z hm
        rw [h2] at hm
        rcases List.mem_append.1 hm with hm | hm
        · exact b4 _ _ _ hm
        · obtain ⟨_, _, hx⟩ := hl _ hm; cases hx
  · have : LogEntry.fileCreation ts name i sz ∈ l := by rw [h2]; simp
    obtain ⟨_, _, hx⟩ := hl _ this; cases hx

/-- No process is running. -/
def Down (v g : Bool) (s : LogSys) : Prop :=
  ∃ es t, LogIs s.m.log es t ∧ QOk v g es s.tr ∧ HdrOk es

/-- A process is running: `es0` are the entries found at the start, `es1` those written
since, `tr0` and `tr1` what happened before and since. -/
structure Up (v g : Bool) (s : LogSys) (es0 es1 : List LogEntry) (t : Bytes) (tr0 tr1 : List TItem) : Prop where
  tr : s.tr = tr0 ++ tr1
  log : LogIs s.m.log (es0 ++ es1) t
  q : QOk v g es0 tr0
  hdrOk : HdrOk (es0 ++ es1)
  items : ∀ it ∈ tr1, (∃ e, it = .added e s.tag s.n) ∨ it = .data s.tag s.n s.resuming
  sub : ((es1 ++ s.m.pending).filter LogEntry.isAdd).Sublist (addsOf tr1)
  hdr1 : ∀ ts w r i c, LogEntry.header ts w r i c ∈ es1 → (⟨r, c, i⟩ : Tag) = s.tag
  cre1 : ∀ pre ts n i sz post, es1 = pre ++ LogEntry.fileCreation ts n i sz :: post → lastHdr pre = some s.tag
  pend : ∀ e ∈ s.m.pending, e.InRange ∧ e.plain = true
  hw : s.m.headerWritten = true → lastHdr es1 = some s.tag
  pendHw : ∀ e ∈ s.m.pending, e.isAdd = true → s.m.headerWritten = true
  torn : s.m.fd = true → (s.m.writer = true ∨ s.settled = false ∨ s.m.env.dirTree = true) → t = []
  fresh : s.settled = false → s.m.pending = [] ∧ s.m.headerWritten = false ∧ ∀ e ∈ es1, ∃ ts, e = .dirInvalidation ts
  idle : s.connected = false → tr1 = [] ∧ s.settled = false ∧ s.m.writer = false ∧
    (s.m.fd = true → s.m.senderIp = ((lastHdr es0).map Tag.ip).getD [])
  conn : s.connected = true → s.m.fd = true → s.m.senderIp = s.peer ∧ s.peer ≠ [] ∧
    s.m.env.recoveryId.length + s.peer.length ≤ 4095
  unusable : s.usable = false → s.m.fd = false ∧ es1 = [] ∧ s.m.status = eINVALID_LOG ∧ s.m.pending = []
  opened : s.usable = true → s.settled = false → s.m.fd = true
  wfd : s.m.writer = true → s.m.fd = true ∧ s.m.env.dirTree = false
  mine : s.usable = true → ∀ pre ts n i sz post τ0, es0 = pre ++ LogEntry.fileCreation ts n i sz :: post →
    lastHdr pre = some τ0 → (∃ e ∈ post ++ es1, Breaks τ0 i e) ∨
      (τ0.rid = s.m.env.recoveryId ∧ τ0.cfg = s.m.env.config ∧ (s.connected = true → v = true → τ0.ip = s.peer))
  kind : s.settled = true → s.usable = true → s.resuming = false → ∃ ts, LogEntry.dirInvalidation ts ∈ es1
  data : g = true → ∀ τ n r, TItem.data τ n r ∈ tr1 → s.settled = true ∧ s.usable = true
  claims : s.m.env.dirTree = false → s.m.claims = [] ∨ (s.connected = false ∧ s.usable = false) ∨
    ∃ es lost, es0 = es ++ lost ∧ (∀ e ∈ lost, ∃ ts i, e = LogEntry.fileInvalidation ts i) ∧
      QOk v g es tr0 ∧ Says s.m.env es s.m.claims ∧ s.usable = true ∧
      (s.settled = false → es1 = [] ∧ (s.connected = true → v = true → ∀ τ', lastHdr es0 = some τ' → τ'.ip = s.peer))
  ver : v = true → s.m.opts.verifyOff = false
  cfg : I63 s.m.env.config ∧ s.m.env.parseOnly = false

theorem plain_no_hdr {l : List LogEntry} (h : ∀ e ∈ l, e.plain = true) : lastHdr l = none :=
  lastHdr_none (fun ts w r s c hm => by have := h _ hm; simp [LogEntry.plain] at this)

/-- Everything recorded so far, also if some of the pending entries are added, is backed by
everything that happened so far. -/
theorem Up.q_ext {v g : Bool} {s : LogSys} {es0 es1 : List LogEntry} {t : Bytes} {tr0 tr1 : List TItem}
    (h : Up v g s es0 es1 t tr0 tr1) (l : List LogEntry) (hl : l.Sublist s.m.pending) : QOk v g (es0 ++ (es1 ++ l)) s.tr := by
  have hlm : ∀ e ∈ l, e ∈ s.m.pending := fun e he => hl.subset he
  have hsubE : ((es1 ++ l).filter LogEntry.isAdd).Sublist (addsOf tr1) :=
    (List.Sublist.filter _ (List.Sublist.append_left hl _)).trans h.sub
  have hhdrE : ∀ ts w r i c, LogEntry.header ts w r i c ∈ es1 ++ l → (⟨r, c, i⟩ : Tag) = s.tag := by
    intro ts w r i c hm
    rcases List.mem_append.1 hm with hm | hm
    · exact h.hdr1 _ _ _ _ _ hm
    · have := (h.pend _ (hlm _ hm)).2; simp [LogEntry.plain] at this
  have hcreE : ∀ pre ts n i sz post, es1 ++ l = pre ++ LogEntry.fileCreation ts n i sz :: post → lastHdr pre = some s.tag := by
    intro pre ts n i sz post he
    rcases split_append he with ⟨p, k1, k2⟩ | ⟨p, k1, k2⟩
    · exact h.cre1 _ _ _ _ _ _ k1
    · have hin : LogEntry.fileCreation ts n i sz ∈ s.m.pending := hlm _ (by rw [k2]; simp)
      have hlh := h.hw (h.pendHw _ hin rfl)
      rw [k1, lastHdr_append, hlh, plain_no_hdr]
      · rfl
      · intro e he
        exact (h.pend e (hlm e (by rw [k2]; simp [he]))).2
  have hus : es1 ++ l ≠ [] → s.usable = true := by
    intro hne
    by_contra hc
    obtain ⟨_, u2, _, u4⟩ := h.unusable (by simpa using hc)
    rw [u4] at hl
    rw [u2, List.eq_nil_of_sublist_nil hl] at hne
    exact hne rfl
  generalize hE : es1 ++ l = E at *
  have hsubset : ∀ e ∈ es1, e ∈ E := fun e he => by rw [← hE]; simp [he]
  intro pre ts name i sz post he
  rcases split_append he with ⟨p, h1, h2⟩ | ⟨p, h1, h2⟩
  · obtain ⟨τ0, k1, k2⟩ := h.q pre ts name i sz p h1
    refine ⟨τ0, k1, ?_⟩
    by_cases hb : ∃ e ∈ post, Breaks τ0 i e
    · exact Or.inl hb
    · rcases k2 with ⟨e, k2, k3⟩ | ⟨a, τs, ns, ts', sz', b, b1, b2, b3, b4, b5⟩
      · exact absurd ⟨e, by rw [h2]; simp [k2], k3⟩ hb
      · have hsame : s.usable = true → s.connected = true → τ0.same v s.tag := by
          intro hu hc
          rcases h.mine hu pre ts name i sz p τ0 h1 k1 with ⟨e, hm, hbr⟩ | ⟨c1, c2, c3⟩
          · refine absurd ⟨e, ?_, hbr⟩ hb
            rw [h2]
            rcases List.mem_append.1 hm with hm | hm
            · exact List.mem_append_left _ hm
            · exact List.mem_append_right _ (hsubset _ hm)
          · exact ⟨c1, c2, c3 hc⟩
        have hcn : tr1 ≠ [] → s.connected = true := by
          intro hne
          by_contra hc
          exact hne (h.idle (by simpa using hc)).1
        have hst : s.settled = true → s.connected = true := by
          intro hne
          by_contra hc
          have := (h.idle (by simpa using hc)).2.1
          rw [this] at hne; cases hne
        refine Or.inr ⟨a, τs, ns, ts', sz', b ++ tr1, ?_, b2, ?_, ?_, ?_⟩
        · rw [h.tr, b1]; simp
        · intro ts w r s' c hm
          rw [h2] at hm
          rcases List.mem_append.1 hm with hm | hm
          · exact b3 _ _ _ _ _ hm
          · rw [hhdrE _ _ _ _ _ hm]
            refine hsame (hus (fun hc => by rw [hc] at hm; cases hm)) (hst ?_)
            by_contra hc
            obtain ⟨f1, _, f3⟩ := h.fresh (by simpa using hc)
            rw [f1] at hl
            rw [← hE, List.eq_nil_of_sublist_nil hl, List.append_nil] at hm
            obtain ⟨_, hx⟩ := f3 _ hm
            cases hx
        · intro ts o z hm q hq1 hq2
          rw [h2] at hm
          rcases List.mem_append.1 hm with hm | hm
          · obtain ⟨ts', o', z', τ', n', m1, m2⟩ := b4 _ _ _ hm q hq1 hq2
            exact ⟨ts', o', z', τ', n', by simp [m1], m2⟩
          · have hin : LogEntry.blockWrite ts i o z ∈ addsOf tr1 :=
              hsubE.subset (List.mem_filter.2 ⟨hm, rfl⟩)
            obtain ⟨τ, n, hin⟩ := mem_addsOf hin
            have hne : tr1 ≠ [] := fun hc => by rw [hc] at hin; cases hin
            rcases h.items _ hin with ⟨e, hx⟩ | hx
            · cases hx
              exact ⟨ts, o, z, s.tag, s.n, by simp [hin],
                hsame (hus (fun hc => by rw [hc] at hm; cases hm)) (hcn hne), hq1, hq2⟩
            · cases hx
        · intro hg τd nd res hm
          rcases List.mem_append.1 hm with hm | hm
          · exact b5 hg _ _ _ hm
          · obtain ⟨d1, d2⟩ := h.data hg _ _ _ hm
            rcases h.items _ hm with ⟨e, hx⟩ | hx
            · cases hx
            · cases hx
              have hne : tr1 ≠ [] := fun hc => by rw [hc] at hm; cases hm
              by_cases hr : s.resuming = true
              · exact Or.inr ⟨hsame d2 (hcn hne), hr⟩
              · obtain ⟨ts2, hd⟩ := h.kind d1 d2 (by simpa using hr)
                exact absurd ⟨.dirInvalidation ts2, by rw [h2]; exact List.mem_append_right _ (hsubset _ hd), trivial⟩ hb
  · have hlh := hcreE _ _ _ _ _ _ h2
    refine ⟨s.tag, by rw [h1, lastHdr_append, hlh]; rfl, Or.inr ?_⟩
    have hsub := hsubE
    rw [h2, List.filter_append, List.filter_cons_of_pos (by rfl)] at hsub
    obtain ⟨a, τ, n, b, s1, s2⟩ := split_adds tr1 _ hsub
    have htag : τ = s.tag ∧ n = s.n := by
      rcases h.items (.added (.fileCreation ts name i sz) τ n) (by rw [s1]; simp) with ⟨e, hx⟩ | hx
      · cases hx; exact ⟨rfl, rfl⟩
      · cases hx
    obtain ⟨rfl, rfl⟩ := htag
    refine ⟨tr0 ++ a, s.tag, s.n, ts, sz, b, by rw [h.tr, s1]; simp, Tag.same_refl _ _, ?_, ?_, ?_⟩
    · intro ts w r s' c hm
      rw [hhdrE ts w r s' c (by rw [h2]; simp [hm])]
      exact Tag.same_refl _ _
    · intro ts o z hm q hq1 hq2
      have hin : LogEntry.blockWrite ts i o z ∈ addsOf b :=
        s2.subset (List.mem_filter.2 ⟨hm, rfl⟩)
      obtain ⟨τ, n, hin⟩ := mem_addsOf hin
      rcases h.items (.added (.blockWrite ts i o z) τ n) (by rw [s1]; simp [hin]) with ⟨e, hx⟩ | hx
      · cases hx; exact ⟨ts, o, z, s.tag, s.n, hin, Tag.same_refl _ _, hq1, hq2⟩
      · cases hx
    · intro _ τd nd res hm
      rcases h.items (.data τd nd res) (by rw [s1]; simp [hm]) with ⟨e, hx⟩ | hx
      · cases hx
      · cases hx; exact Or.inl rfl

theorem Up.q_all {v g : Bool} {s : LogSys} {es0 es1 : List LogEntry} {t : Bytes} {tr0 tr1 : List TItem}
    (h : Up v g s es0 es1 t tr0 tr1) : QOk v g (es0 ++ es1) s.tr := by
  simpa using h.q_ext [] (List.nil_sublist _)

/-- In a running session whose log is in use, what is not ended is of the kind of this
session. -/
theorem Up.same_tag {v g : Bool} {s : LogSys} {es0 es1 : List LogEntry} {t : Bytes} {tr0 tr1 : List TItem}
    (h : Up v g s es0 es1 t tr0 tr1) (hu : s.usable = true) (hc : s.connected = true) :
    ∀ pre ts n i sz post τ0, es0 ++ es1 = pre ++ LogEntry.fileCreation ts n i sz :: post → lastHdr pre = some τ0 →
      (∃ e ∈ post, Breaks τ0 i e) ∨ τ0.same v s.tag := by
  intro pre ts n i sz post τ0 he hl
  rcases split_append he with ⟨p, h1, h2⟩ | ⟨p, h1, h2⟩
  · rcases h.mine hu pre ts n i sz p τ0 h1 hl with hb | ⟨c1, c2, c3⟩
    · rw [h2]; exact Or.inl hb
    · exact Or.inr ⟨c1, c2, c3 hc⟩
  · have := h.cre1 _ _ _ _ _ _ h2
    rw [h1, lastHdr_append, this] at hl
    simp only [Option.some_or, Option.some.injEq] at hl
    rw [← hl]
    exact Or.inr (Tag.same_refl _ _)

/-- A header of the same kind changes nothing. -/
theorem QOk.append_hdr {v g : Bool} {es : List LogEntry} {tr : List TItem} (h : QOk v g es tr) (ts w : Int) (τ : Tag)
    (hs : ∀ pre ts n i sz post τ0, es = pre ++ LogEntry.fileCreation ts n i sz :: post → lastHdr pre = some τ0 →
      (∃ e ∈ post, Breaks τ0 i e) ∨ τ0.same v τ) : QOk v g (es ++ [.header ts w τ.rid τ.ip τ.cfg]) tr := by
  intro pre ts' name i sz post he
  rcases split_append he with ⟨p, h1, h2⟩ | ⟨p, h1, h2⟩
  · obtain ⟨τ0, k1, k2⟩ := h pre ts' name i sz p h1
    refine ⟨τ0, k1, ?_⟩
    rcases hs pre ts' name i sz p τ0 h1 k1 with ⟨e, hm, hb⟩ | hsame
    · exact Or.inl ⟨e, by rw [h2]; simp [hm], hb⟩
    rcases k2 with ⟨e, k2, k3⟩ | ⟨a, τs, ns, ts', sz', b, b1, b2, b3, b4, b5⟩
    · exact Or.inl ⟨e, by rw [h2]; simp [k2], k3⟩
    · refine Or.inr ⟨a, τs, ns, ts', sz', b, b1, b2, ?_, ?_, b5⟩
      · intro ts w r s c hm
        rw [h2] at hm
        rcases List.mem_append.1 hm with hm | hm
        · exact b3 _ _ _ _ _ hm
        · simp only [List.mem_singleton, LogEntry.header.injEq] at hm
          obtain ⟨_, _, rfl, rfl, rfl⟩ := hm
          exact hsame
      · intro ts o z hm
        rw [h2] at hm
        rcases List.mem_append.1 hm with hm | hm
        · exact b4 _ _ _ hm
        · simp at hm
  · have : LogEntry.fileCreation ts' name i sz ∈ [LogEntry.header ts w τ.rid τ.ip τ.cfg] := by rw [h2]; simp
    simp at this

/-- An invalidation of the directory ends everything. -/
theorem QOk.append_dir {v g : Bool} {es : List LogEntry} {tr : List TItem} (h : QOk v g es tr) (ts : Int) :
    QOk v g (es ++ [.dirInvalidation ts]) tr := by
  intro pre ts' name i sz post he
  rcases split_append he with ⟨p, h1, h2⟩ | ⟨p, h1, h2⟩
  · obtain ⟨τ0, k1, _⟩ := h pre ts' name i sz p h1
    exact ⟨τ0, k1, Or.inl ⟨.dirInvalidation ts, by rw [h2]; simp, trivial⟩⟩
  · have : LogEntry.fileCreation ts' name i sz ∈ [LogEntry.dirInvalidation ts] := by rw [h2]; simp
    simp at this

end Wdt
