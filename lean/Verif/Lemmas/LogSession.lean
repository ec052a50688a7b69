import Verif.Model.LogSession
import Verif.Props.TransferLog
/-
Facts about writing to a log and about parsing a log whose entries are known.
-/
namespace Wdt

/-- Tag of the last header among these entries. -/
def lastHdr (es : List LogEntry) : Option Tag :=
  es.foldl (fun a e => match e with | .header _ _ r s c => some ⟨r, c, s⟩ | _ => a) none

theorem lastHdr_from (es : List LogEntry) (o : Option Tag) :
    es.foldl (fun a e => match e with | .header _ _ r s c => some ⟨r, c, s⟩ | _ => a) o = (lastHdr es).or o := by
  induction es generalizing o with
  | nil => rfl
  | cons e es ih =>
    unfold lastHdr
    simp only [List.foldl_cons]
    rw [ih, ih]
    cases e <;> cases h : lastHdr es <;> simp

theorem lastHdr_append (a b : List LogEntry) : lastHdr (a ++ b) = (lastHdr b).or (lastHdr a) := by
  conv => lhs; unfold lastHdr
  rw [List.foldl_append, lastHdr_from]; rfl

theorem lastHdr_none {es : List LogEntry} (h : ∀ ts v r s c, LogEntry.header ts v r s c ∉ es) : lastHdr es = none := by
  induction es with
  | nil => rfl
  | cons e es ih =>
    rw [← List.singleton_append, lastHdr_append, ih (fun ts v r s c hm => h ts v r s c (List.mem_cons_of_mem _ hm))]
    cases e with
    | header ts v r s c => exact absurd (List.mem_cons_self ..) (h ts v r s c)
    | _ => rfl

theorem lastHdr_mem {es : List LogEntry} {τ : Tag} (h : lastHdr es = some τ) :
    ∃ ts v, LogEntry.header ts v τ.rid τ.ip τ.cfg ∈ es := by
  induction es with
  | nil => simp [lastHdr] at h
  | cons e es ih =>
    rw [← List.singleton_append, lastHdr_append] at h
    cases hes : lastHdr es with
    | some τ' =>
      rw [hes] at h
      simp only [Option.some_or, Option.some.injEq] at h
      subst h
      obtain ⟨ts, v, hm⟩ := ih hes
      exact ⟨ts, v, List.mem_cons_of_mem _ hm⟩
    | none =>
      rw [hes] at h
      cases e with
      | header ts v r s c =>
        simp [lastHdr] at h
        subst h
        exact ⟨ts, v, by simp⟩
      | _ => simp [lastHdr] at h

/-! ### Writing -/

theorem recBytes_eq {e : LogEntry} (h : e.InRange) : recBytes e = frame e.payload := by
  unfold recBytes; rw [record_ok e h]

theorem fullWrite_eq {e : LogEntry} (h : e.InRange) (w : Nat) : fullWrite e w = decide ((recBytes e).length ≤ w) := by
  unfold fullWrite recBytes; rw [record_ok e h]

theorem pendingBytes_eq {es : List LogEntry} (h : ∀ e ∈ es, e.InRange) :
    pendingBytes es = (es.map LogEntry.payload).flatMap frame := by
  induction es with
  | nil => rfl
  | cons e es ih =>
    unfold pendingBytes at ih ⊢
    rw [List.flatMap_cons, recBytes_eq (h e (by simp)), ih (fun x hx => h x (by simp [hx]))]
    simp only [List.map_cons, List.flatMap_cons]

/-- Writing the first `w` bytes of some entries leaves a prefix of them, and possibly an
incomplete one. -/
theorem write_entries {log : Bytes} {es ps : List LogEntry} (hl : LogIs log es []) (hp : ∀ e ∈ ps, e.InRange) (w : Nat) :
    ∃ m t, LogIs (log ++ (pendingBytes ps).take w) (es ++ ps.take m) t ∧
      ((pendingBytes ps).length ≤ w → t = [] ∧ ps.take m = ps) ∧
      ((pendingBytes ps).length > w → m < ps.length) := by
  have hok := payloads_ok ps hp
  rw [pendingBytes_eq hp]
  obtain ⟨m, t, hm, h1, h2, h3, h4⟩ := cut_frames _ hok (min w ((ps.map LogEntry.payload).flatMap frame).length) (Nat.min_le_right _ _)
  have htk : ((ps.map LogEntry.payload).flatMap frame).take w =
      ((ps.map LogEntry.payload).take m).flatMap frame ++ t := by
    rw [← h1]; exact List.take_eq_take_min
  rw [List.length_map] at hm h4
  have hlast : ((ps.map LogEntry.payload).flatMap frame).length > w → m < ps.length := by
    intro hw
    by_contra hc
    have hmm : m = ps.length := by omega
    have ht := h4 (by omega)
    rw [ht, hmm, List.append_nil, List.take_of_length_le (l := ps.map LogEntry.payload) (by simp)] at htk
    have := congrArg List.length htk
    rw [List.length_take] at this
    omega
  have hfull : ((ps.map LogEntry.payload).flatMap frame).length ≤ w → t = [] ∧ ps.take m = ps := by
    intro hw
    rw [List.take_of_length_le hw] at htk
    have hml : ps.length ≤ m := by
      by_contra hc
      have hget : (ps.map LogEntry.payload)[m]? = some (ps[m]'(by omega)).payload := by
        rw [List.getElem?_map, List.getElem?_eq_getElem (by omega)]; rfl
      have hlt := h3 _ hget
      have e1 := congrArg List.length htk
      have e2 : ((ps.map LogEntry.payload).flatMap frame).length =
          (((ps.map LogEntry.payload).take m).flatMap frame).length + (((ps.map LogEntry.payload).drop m).flatMap frame).length := by
        conv => lhs; rw [← List.take_append_drop m (ps.map LogEntry.payload)]
        rw [List.flatMap_append, List.length_append]
      have e3 : (ps.map LogEntry.payload).drop m = (ps[m]'(by omega)).payload :: (ps.map LogEntry.payload).drop (m + 1) := by
        rw [List.drop_eq_getElem_cons (by simp; omega)]; simp
      rw [e3, List.flatMap_cons, List.length_append] at e2
      rw [List.length_append] at e1
      omega
    exact ⟨h4 hml, List.take_of_length_le hml⟩
  refine ⟨m, t, ?_, hfull, hlast⟩
  rw [htk]
  refine logIs_append hl ⟨(ps.take m).map LogEntry.payload, ?_, ?_, h2, ?_⟩
  · rw [List.map_take]
  · exact payloads_ok _ (fun e he => hp e (List.mem_of_mem_take he))
  · rw [decoded_entries _ (fun e he => hp e (List.mem_of_mem_take he))]

/-- Writing one entry. -/
theorem write_entry {log : Bytes} {es : List LogEntry} {e : LogEntry} (hl : LogIs log es []) (he : e.InRange) (w : Nat) :
    (fullWrite e w = true → LogIs (log ++ (recBytes e).take w) (es ++ [e]) []) ∧
    (fullWrite e w = false → ∃ t, LogIs (log ++ (recBytes e).take w) es t) := by
  obtain ⟨m, t, h1, h2, h3⟩ := write_entries (ps := [e]) hl (by simpa using he) w
  have hb : pendingBytes [e] = recBytes e := by simp [pendingBytes]
  rw [hb] at h1 h2 h3
  rw [fullWrite_eq he]
  constructor
  · intro hf
    obtain ⟨rfl, h5⟩ := h2 (by simpa using hf)
    rw [h5] at h1; exact h1
  · intro hf
    have := h3 (by simpa using hf)
    simp only [List.length_singleton] at this
    obtain rfl : m = 0 := by omega
    exact ⟨t, by simpa using h1⟩

/-! ### Parsing -/

/-- Address the parser knows after this entry. -/
def LogEntry.ipAfter (old : Bytes) : LogEntry → Bytes
  | .header _ _ _ s _ => s
  | _ => old

theorem stepEntry_ip {env : LogEnv} {st st' : LP} {e : LogEntry} (h : st.stepEntry env e = .ok st') :
    st'.senderIp = e.ipAfter st.senderIp := by
  unfold LP.stepEntry at h
  have hset : ∀ x : LP, x.settle.senderIp = x.senderIp := by
    intro x; unfold LP.settle; split <;> rfl
  split at h
  · rename_i h1
    cases h
    cases e <;> first | rfl | exact absurd rfl h1.2
  · cases hp : st.process env e with
    | error f => rw [hp] at h; cases h
    | ok s1 =>
      rw [hp] at h
      simp only [Except.ok.injEq] at h
      subst h
      rw [hset]
      cases e <;> simp only [LP.process, Except.ok.injEq] at hp
      · subst hp; simp only [LP.onHeader]; repeat' split
        all_goals rfl
      · subst hp; simp only [LP.onCreation]; repeat' split
        all_goals rfl
      · unfold LP.onBlock at hp; repeat' split at hp
        all_goals first | (cases hp; rfl) | cases hp
      · subst hp; simp only [LP.onInvalidation]; repeat' split
        all_goals rfl
      · unfold LP.onResize at hp; repeat' split at hp
        all_goals first | (cases hp; rfl) | cases hp
      · subst hp; simp only [LP.onDirInvalidation]; repeat' split
        all_goals rfl

theorem runEntries_ip {env : LogEnv} (es : List LogEntry) : ∀ (st st' : LP), runEntries env st es = .ok st' →
    st'.status ≠ eINVALID_LOG → st'.senderIp = ((lastHdr es).map Tag.ip).getD st.senderIp := by
  induction es with
  | nil => intro st st' h _; simp only [runEntries, Except.ok.injEq] at h; subst h; rfl
  | cons e es ih =>
    intro st st' h hs
    simp only [runEntries] at h
    cases hstep : st.stepEntry env e with
    | error f => rw [hstep] at h; cases h
    | ok s1 =>
      rw [hstep] at h
      simp only at h
      split at h
      · rename_i h1; cases h; exact absurd h1 hs
      · rw [ih _ _ h hs, stepEntry_ip hstep, ← List.singleton_append, lastHdr_append]
        cases lastHdr es <;> cases e <;> simp [lastHdr, LogEntry.ipAfter]

/-- What parsing does when the entries of the log are known. -/
theorem parse_known {env : LogEnv} (hpo : env.parseOnly = false) (hnow : I63 env.now) {ip log : Bytes} {out : ParseOut}
    {es : List LogEntry} {t : Bytes} (hl : LogIs log es t) (h : parseLog env ip log = .ok out)
    (hs : out.status ≠ eINVALID_LOG) :
    (∃ lost : List Int, LogIs out.log (es ++ lost.map (LogEntry.fileInvalidation env.now)) []) ∧
    out.status = (if inDoubt env es then eINCONSISTENT_DIRECTORY else eOK) ∧
    out.senderIp = ((lastHdr es).map Tag.ip).getD ip ∧
    (out.status = eOK → Says env es out.infos) ∧
    (out.status ≠ eOK → out.infos = []) := by
  obtain ⟨ps, t', st, h1, h2, h3, h4, h5, h6, h7, h8⟩ := parse_state hpo h hs
  obtain ⟨c1, c2, c3, c4⟩ := conclude_log hpo hnow h7 h8 hs
  have hes : es = ps.filterMap decodePayload := (logIs_unique hl ⟨ps, h1, h2, h3, rfl⟩).1
  obtain ⟨es', t'', lost, b1, b2, _, _⟩ := C26_clean_boundary env hpo hnow ip log out h hs
  obtain ⟨rfl, _⟩ := logIs_unique hl b1
  refine ⟨⟨lost, b2⟩, ?_, ?_, ?_, ?_⟩
  · rw [c2, h6.status, hes]
  · rw [c3, hes]
    exact runEntries_ip _ _ _ (runPayloads_entries env ps _ _ h4 h5) h5
  · intro ho
    obtain ⟨e2, t2, d1, _, d2⟩ := C27_parse_says env hpo hnow ip log out h ho
    obtain ⟨rfl, _⟩ := logIs_unique hl d1
    exact d2
  · intro ho
    rw [c4, if_neg (c2 ▸ ho)]

/-- A log that is found invalid keeps its entries. -/
theorem parse_invalid {env : LogEnv} (hpo : env.parseOnly = false) {ip log : Bytes} {out : ParseOut}
    {es : List LogEntry} {t : Bytes} (hl : LogIs log es t) (h : parseLog env ip log = .ok out)
    (hs : out.status = eINVALID_LOG) : ∃ t', LogIs out.log es t' := by
  obtain ⟨ps, a1, a2, a3, a4⟩ := hl
  have hw : LogIs (ps.flatMap frame) es [] := ⟨ps, by simp, a2, partial_nil, a4⟩
  have hll : LogIs log es t := ⟨ps, a1, a2, a3, a4⟩
  rw [a1, parseLog_frames env ip ps a2 t a3] at h
  cases hr : runPayloads env { senderIp := ip } ps with
  | error f => rw [hr] at h; cases h
  | ok st =>
    rw [hr] at h
    simp only [conclude, hpo, Bool.false_eq_true, if_false] at h
    split at h
    · cases h; exact ⟨t, by rw [← a1]; exact hll⟩
    split at h
    · cases h; exact ⟨t, by rw [← a1]; exact hll⟩
    split at h
    · cases h; exact ⟨[], hw⟩
    split at h
    · cases h; exact ⟨[], hw⟩
    split at h
    · cases h; exact ⟨[], hw⟩
    split at h
    · cases h
    · cases h; exact absurd (show eOK = eINVALID_LOG from hs) (by decide)

end Wdt
