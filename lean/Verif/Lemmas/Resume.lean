import Verif.Model.Resume
import Verif.Lemmas.LogFinish
import Verif.Lemmas.LogTree
import Verif.Props.FileWriter
/-
What the log says about the contents of files is true, over several receiver processes.
-/
namespace Wdt

/-- The file holds the bytes of the source in these ranges, stored by the device, and is not
longer. -/
def HoldsIn (f b : Option Bytes) (sf : Nat → Bool) (r : List Interval) : Prop :=
  ∃ c s, f = some c ∧ b = some s ∧ c.length ≤ s.length ∧ ∀ p : Nat, Covered r p → (p < c.length ∧ c[p]? = s[p]?) ∧ sf p = true

/-- Files of which a log with these entries says something are as it says, unless they are
gone. -/
def Honest (src : Tag → Bytes → Option Bytes) (files : Bytes → Option Bytes) (safe : Bytes → Nat → Bool) (E : List LogEntry) : Prop :=
  ∀ env i n sz r, Live env E i n sz r → ∀ τ, lastHdr E = some τ → files n ≠ none → HoldsIn (files n) (src τ n) (safe n) r

/-- No file is known under two numbers. -/
def OneName (E : List LogEntry) : Prop :=
  ∀ env i i' n sz sz' r r', Live env E i n sz r → Live env E i' n sz' r' → i = i'

theorem live_ids {env env' : LogEnv} (h1 : env.recoveryId = env'.recoveryId) (h2 : env.config = env'.config)
    {E : List LogEntry} {i : Int} {n : Bytes} {sz : Int} {r : List Interval} (h : Live env E i n sz r) : Live env' E i n sz r := by
  obtain ⟨pre, ts, post, k1, k2, k3, k4⟩ := h
  refine ⟨pre, ts, post, k1, by rw [← inDoubt_env env env' h1 h2]; exact k2, ?_, k4⟩
  intro e he
  rw [← k3 e he]
  cases e <;> simp [LogEntry.endsFile, LogEntry.resets, h1, h2]

/-- Entries that are neither headers nor invalidations of the directory and add nothing. -/
def LogEntry.quiet (e : LogEntry) : Prop := e.plain = true ∧ e.isAdd = false

theorem live_quiet {env : LogEnv} {E : List LogEntry} {e : LogEntry} (he : e.quiet) {i : Int} {n : Bytes} {sz : Int}
    {r : List Interval} (h : Live env (E ++ [e]) i n sz r) : Live env E i n sz r ∧ e.endsFile env i = false := by
  rcases (live_snoc env E e i n sz r).1 h with ⟨⟨ts, rfl⟩, _⟩ | ⟨k1, r', k2, k3⟩
  · exact absurd he.2 (by simp [LogEntry.isAdd])
  · have : e.range i = [] := by
      cases e <;> first | rfl | exact absurd he.2 (by simp [LogEntry.isAdd])
    rw [this, List.append_nil] at k3
    exact ⟨k3 ▸ k2, k1⟩

theorem live_quiets {env : LogEnv} {E l : List LogEntry} (hl : ∀ e ∈ l, e.quiet) {i : Int} {n : Bytes} {sz : Int}
    {r : List Interval} (h : Live env (E ++ l) i n sz r) : Live env E i n sz r ∧ ∀ e ∈ l, e.endsFile env i = false := by
  induction l using List.reverseRecOn with
  | nil => exact ⟨by simpa using h, by simp⟩
  | append_singleton l e ih =>
    rw [← List.append_assoc] at h
    obtain ⟨k1, k2⟩ := live_quiet (hl e (by simp)) h
    obtain ⟨k3, k4⟩ := ih (fun x hx => hl x (by simp [hx])) k1
    refine ⟨k3, fun x hx => ?_⟩
    rcases List.mem_append.1 hx with hx | hx
    · exact k4 x hx
    · rw [List.mem_singleton] at hx; rw [hx]; exact k2

theorem no_live_dir {env : LogEnv} {E : List LogEntry} {ts : Int} {i : Int} {n : Bytes} {sz : Int} {r : List Interval} :
    ¬ Live env (E ++ [.dirInvalidation ts]) i n sz r := by
  intro h
  rcases (live_snoc ..).1 h with ⟨⟨ts, hx⟩, _⟩ | ⟨k1, _⟩
  · cases hx
  · exact absurd k1 (by simp [LogEntry.endsFile, LogEntry.resets])

theorem live_header {env : LogEnv} {E : List LogEntry} {ts w : Int} {rid ip : Bytes} {c : Int} {i : Int} {n : Bytes} {sz : Int}
    {r : List Interval} (h : Live env (E ++ [.header ts w rid ip c]) i n sz r) :
    Live env E i n sz r ∧ rid = env.recoveryId ∧ c = env.config := by
  rcases (live_snoc ..).1 h with ⟨⟨ts, hx⟩, _⟩ | ⟨k1, r', k2, k3⟩
  · cases hx
  · simp only [LogEntry.range, List.append_nil] at k3
    simp only [LogEntry.endsFile, LogEntry.resets, decide_eq_false_iff_not, not_or, not_ne_iff] at k1
    exact ⟨k3 ▸ k2, k1⟩

theorem quiet_invals (now : Int) (lost : List Int) : ∀ e ∈ lost.map (LogEntry.fileInvalidation now), e.quiet := by
  intro e he
  obtain ⟨i, _, rfl⟩ := List.mem_map.1 he
  exact ⟨rfl, rfl⟩

theorem Honest.quiets {src : Tag → Bytes → Option Bytes} {files : Bytes → Option Bytes} {safe : Bytes → Nat → Bool} {E l : List LogEntry}
    (h : Honest src files safe E) (hl : ∀ e ∈ l, e.quiet) : Honest src files safe (E ++ l) := by
  intro env i n sz r hlive τ hτ
  rw [lastHdr_plain E l (fun e he => (hl e he).1)] at hτ
  exact h env i n sz r (live_quiets hl hlive).1 τ hτ

theorem OneName.quiets {E l : List LogEntry} (h : OneName E) (hl : ∀ e ∈ l, e.quiet) : OneName (E ++ l) :=
  fun env i i' n sz sz' r r' h1 h2 => h env i i' n sz sz' r r' (live_quiets hl h1).1 (live_quiets hl h2).1

theorem Honest.dir {src : Tag → Bytes → Option Bytes} {files : Bytes → Option Bytes} {safe : Bytes → Nat → Bool} (E : List LogEntry) (ts : Int) :
    Honest src files safe (E ++ [.dirInvalidation ts]) := fun _ _ _ _ _ h => absurd h no_live_dir

theorem OneName.dir (E : List LogEntry) (ts : Int) : OneName (E ++ [.dirInvalidation ts]) :=
  fun _ _ _ _ _ _ _ _ h => absurd h no_live_dir

theorem OneName.header {E : List LogEntry} (h : OneName E) (ts w : Int) (rid ip : Bytes) (c : Int) :
    OneName (E ++ [.header ts w rid ip c]) :=
  fun env i i' n sz sz' r r' h1 h2 => h env i i' n sz sz' r r' (live_header h1).1 (live_header h2).1

/-- What a file that was named live is under: its header. -/
theorem live_last {v g : Bool} {env : LogEnv} {E : List LogEntry} {tr : List TItem} (hq : QOk v g E tr)
    {i : Int} {n : Bytes} {sz : Int} {r : List Interval} (h : Live env E i n sz r) :
    ∃ τ, lastHdr E = some τ ∧ τ.rid = env.recoveryId ∧ τ.cfg = env.config := by
  obtain ⟨τ0, _, h1, h2, _, _, τ, h3, h4⟩ := live_backed hq h
  exact ⟨τ, h3, by rw [← h4.1, h1], by rw [← h4.2.1, h2]⟩

/-- A log in use: everything that is live is listed. -/
theorem parse_listed {env : LogEnv} (hpo : env.parseOnly = false) (hnow : I63 env.now) {ip log : Bytes} {out : ParseOut}
    {es : List LogEntry} {t : Bytes} (hl : LogIs log es t) (h : parseLog env ip log = .ok out) (ho : out.status = eOK)
    {lost : List LogEntry} (hlost : LogIs out.log (es ++ lost) []) {i : Int} {n : Bytes} {sz : Int} {r : List Interval}
    (hlive : Live env (es ++ lost) i n sz r) : ∃ x ∈ out.infos, x.seqId = i ∧ x.fileName = n := by
  have hs : out.status ≠ eINVALID_LOG := by rw [ho]; decide
  obtain ⟨ps, t', st, h1, h2, h3, h4, h5, h6, h7, h8⟩ := parse_state hpo h hs
  obtain ⟨c1, c2, c3, c4⟩ := conclude_log hpo hnow h7 h8 hs
  have hes : es = ps.filterMap decodePayload := (logIs_unique hl ⟨ps, h1, h2, h3, rfl⟩).1
  have hok : st.status = eOK := by rw [← c2, ho]
  rw [if_pos hok] at c1 c4
  have hl2 : LogIs out.log (es ++ st.invalid.map (LogEntry.fileInvalidation env.now)) [] := by
    refine ⟨ps ++ (st.invalid.map fun i => (LogEntry.fileInvalidation env.now i).payload), by simp [c1], ?_, partial_nil, ?_⟩
    · intro p hp
      rcases List.mem_append.1 hp with hp | hp
      · exact h2 p hp
      · obtain ⟨i, hi, rfl⟩ := List.mem_map.1 hp
        exact payloadOK _ ⟨hnow, h7.2 i hi⟩
    · rw [List.filterMap_append, hes]
      congr 1
      have : (st.invalid.map fun i => (LogEntry.fileInvalidation env.now i).payload) =
          (st.invalid.map (LogEntry.fileInvalidation env.now)).map LogEntry.payload := by
        rw [List.map_map]; rfl
      rw [this, decoded_entries]
      intro e he
      obtain ⟨i, hi, rfl⟩ := List.mem_map.1 he
      exact ⟨hnow, h7.2 i hi⟩
  have hll := (logIs_unique hl2 hlost).1
  rw [List.append_cancel_left_eq] at hll
  subst hll
  obtain ⟨k1, k2⟩ := live_quiets (quiet_invals env.now st.invalid) hlive
  rw [hes] at k1
  cases hd : onDisk env n sz with
  | none =>
    have hin := (h6.invalid i).2 ⟨n, sz, r, k1, hd⟩
    exact absurd (k2 _ (List.mem_map.2 ⟨i, hin, rfl⟩)) (by simp [LogEntry.endsFile])
  | some d =>
    have hin := (h6.infos ⟨i, n, d, r⟩).2 ⟨sz, k1, hd⟩
    rw [c4]
    exact ⟨_, List.mem_map.2 ⟨_, hin, rfl⟩, rfl, rfl⟩

end Wdt
