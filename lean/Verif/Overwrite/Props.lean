import Verif.Overwrite.Lemmas
import Mathlib.Tactic.IntervalCases

/-!
# C162: a worker started with `overwrite_working_directory=True` starts a new run
-/

namespace Neps.Overwrite

/-- **C162 (partial)**: whatever workers of the old run still do, from the moment a worker is started with
`overwrite_working_directory=True` no configuration that was ever stored before is stored, and no result
of one.

Missing: that the new run works (`C162_stale_worker_fails`), and that its configurations are from its
search space (`C162_search_space_fails`). -/
theorem C162_nothing_old_partial (s t : List Event) (w sp : Nat) (hw : (run .empty s).Off w)
    (p : List Event) (hp : p <+: s) {i j : Nat} {old new : Entry} (ho : (run .empty p).Stored i old)
    (hn : (run .empty (s ++ .launch w true sp :: t)).Stored j new) :
    new.cfg ≠ old.cfg ∧ new.result ≠ some old.cfg := by
  obtain ⟨q, rfl⟩ := hp
  have h1 : old.cfg < (run .empty (p ++ q)).fresh := by
    have := ((inv_empty.run p).below i old ho).2
    rw [run_append]
    exact Nat.lt_of_lt_of_le this (fresh_run _ q)
  have h2 : (run .empty (p ++ q)).fresh ≤ new.cfg := by
    rw [run_append] at hn
    refine Young.run (n := (run .empty (p ++ q)).fresh) (W := step (run .empty (p ++ q))
      (.launch w true sp)) ?_ (fresh_step _ _) t j new hn
    intro i e hm
    simp only [step, launch, show (run .empty (p ++ q)).status w = .off from hw, if_true] at hm
    simp at hm
  refine ⟨by omega, ?_⟩
  intro hr
  have := (inv_empty.run (p ++ q ++ .launch w true sp :: t)).own j new _ hn hr
  omega

/-- Worker 0 evaluates trial 1, worker 1 overwrites the run and has its own trial 1. -/
example : ∃ old new, (run .empty [.launch 0 false 0, .attempt 0 1]).Off 1 ∧
    (run .empty [.launch 0 false 0, .attempt 0 1]).Stored 1 old ∧
    (run .empty ([.launch 0 false 0, .attempt 0 1] ++ .launch 1 true 0 :: [.attempt 1 1, .finish 0,
      .finish 1])).Stored 1 new ∧ new.result = some 1 :=
  ⟨⟨0, 0, 0, none⟩, ⟨2, 1, 0, some 1⟩, by unfold World.Off; decide, by unfold World.Stored; decide,
    by unfold World.Stored; decide, rfl⟩

/-- **C162**: a stored result is always one of the stored configuration, also when a worker of an old run
and one of the new run have a trial with the same id. -/
theorem C162_own_result (s : List Event) {i c : Nat} {e : Entry} (h : (run .empty s).Stored i e)
    (hr : e.result = some c) : c = e.cfg :=
  (inv_empty.run s).own i e c h hr

/-- **C162**: a worker that is started with `overwrite_working_directory=True` finds nothing, whatever
happened before, and can store a trial under any id. -/
theorem C162_starts_empty (s : List Event) (w sp id : Nat) (hw : (run .empty s).Off w) :
    (run .empty (s ++ [.launch w true sp])).Nothing ∧
      ∃ c, (run .empty (s ++ [.launch w true sp, .attempt w id])).Evaluates w id c := by
  have hl : step (run .empty s) (.launch w true sp) =
      { run .empty s with
        slots := []
        status := upd (run .empty s).status w .idle
        space := upd (run .empty s).space w sp } := by
    simp only [step, launch, show (run .empty s).status w = .off from hw, if_true]
  constructor
  · rw [run_append]
    intro i e hm
    simp only [run, hl, World.Stored] at hm
    simp at hm
  · refine ⟨(run .empty s).fresh, (run .empty s).fresh, ?_⟩
    rw [run_append]
    simp only [run, hl]
    simp [step, attempt, upd]

/-- **C162 (partial)**: if nobody is evaluating whenever a worker is started with
`overwrite_working_directory=True`, every evaluation that ends is stored and its worker goes on.

Missing: overwriting while somebody is evaluating (`C162_stale_worker_fails`). -/
theorem C162_stored_partial (s : List Event) (hs : Calm s) {w i c : Nat}
    (h : (run .empty s).Evaluates w i c) :
    (∃ e, (run .empty (s ++ [.finish w])).Stored i e ∧ e.cfg = c ∧ e.result = some c) ∧
      ¬ (run .empty (s ++ [.finish w])).Raised w := by
  obtain ⟨v, hv⟩ := h
  obtain ⟨e, hm, he⟩ := finish_good (inv_empty.run s) hs.good hv
  have hr : run .empty (s ++ [.finish w]) = finish (run .empty s) w := by rw [run_append]; rfl
  have hst : (run .empty (s ++ [.finish w])).Stored i
      { e with ver := (run .empty s).fresh, result := some c } := by
    rw [hr, he]
    rcases setSlot_mem (id := i)
      (s := .trial { e with ver := (run .empty s).fresh, result := some c }) hm with h' | h'
    · exact h'.2
    · exact absurd rfl h'.1
  refine ⟨⟨_, hst, ?_, rfl⟩, ?_⟩
  · exact (C162_own_result (s ++ [.finish w]) hst rfl).symm
  · rw [hr, he]
    simp [World.Raised, upd]

/-- **C162 (partial)**: if nobody is evaluating whenever a worker is started with
`overwrite_working_directory=True`, a worker without a trial can store one under any id that is not in
use. -/
theorem C162_samples_partial (s : List Event) (hs : Calm s) {w id : Nat}
    (hw : (run .empty s).status w = .idle) (hid : ∀ e, ¬ (run .empty s).Stored id e) :
    ∃ c, (run .empty (s ++ [.attempt w id])).Evaluates w id c := by
  have hg := hs.good
  refine ⟨(run .empty s).fresh, (run .empty s).fresh, ?_⟩
  rw [run_append]
  simp only [run, step, attempt, hw]
  rw [if_neg]
  · simp [upd]
  · simp only [Bool.or_eq_true, not_or]
    constructor
    · intro h
      obtain ⟨⟨i, t⟩, hm, ht⟩ := List.any_eq_true.mp h
      cases t with
      | bare => exact hg.noBare i hm
      | trial e => simp [Slot.isBare] at ht
    · intro h
      obtain ⟨⟨i, t⟩, hm, ht⟩ := List.any_eq_true.mp h
      have : i = id := by simpa using ht
      subst this
      cases t with
      | bare => exact hg.noBare i hm
      | trial e => exact hid e hm

/-- A run is overwritten after its worker has stored its report, and again after a kill. -/
def calmHistory : List Event :=
  [.launch 0 true 0, .attempt 0 1, .finish 0, .launch 1 true 0, .attempt 1 1, .attempt 0 2, .kill 1,
    .kill 0, .launch 1 true 0, .attempt 1 1]

/-- One of the first events of a list and what is before it. -/
theorem calm_of_all {s : List Event}
    (h : ∀ n < s.length, ∀ a, s[n]? = some a → a.Overwrites →
      ∀ w id c, ¬ (run .empty (s.take n)).Evaluates w id c) : Calm s := by
  intro p a t hs ho
  have hn : p.length < s.length := by rw [hs]; simp
  have ha : s[p.length]? = some a := by rw [hs]; simp
  have ht : s.take p.length = p := by rw [hs]; simp
  have := h p.length hn a ha ho
  rwa [ht] at this

/-- The status of a process that no event is about. -/
theorem status_other {s : List Event} {w : Nat}
    (h : ∀ a ∈ s, match a with
      | .launch x _ _ => x ≠ w | .attempt x _ => x ≠ w | .finish x => x ≠ w | .kill x => x ≠ w)
    (W : World) : (run W s).status w = W.status w := by
  induction s generalizing W with
  | nil => rfl
  | cons a s ih =>
    have ha := h a (by simp)
    rw [run, ih (fun b hb => h b (by simp [hb]))]
    cases a with
    | launch x o sp =>
      simp only [step, launch]
      split
      · exact upd_other _ _ (Ne.symm ha)
      · rfl
    | attempt x id =>
      simp only [step, attempt]
      split
      · split
        · exact upd_other _ _ (Ne.symm ha)
        · exact upd_other _ _ (Ne.symm ha)
      · rfl
    | finish x =>
      simp only [step, finish]
      split
      · split
        · exact upd_other _ _ (Ne.symm ha)
        · exact upd_other _ _ (Ne.symm ha)
        · split
          · exact upd_other _ _ (Ne.symm ha)
          · exact upd_other _ _ (Ne.symm ha)
      · rfl
    | kill x => exact upd_other _ _ (Ne.symm ha)

theorem calmHistory_calm : Calm calmHistory := by
  apply calm_of_all
  intro n hn a ha ho w id c ⟨v, hv⟩
  have hw : w < 2 := by
    apply Nat.lt_of_not_le
    intro hw
    rw [status_other] at hv
    · exact absurd hv (by simp [World.empty])
    · intro b hb
      have hb := List.mem_of_mem_take hb
      simp only [calmHistory, List.mem_cons, List.not_mem_nil, or_false] at hb
      rcases hb with rfl | rfl | rfl | rfl | rfl | rfl | rfl | rfl | rfl | rfl <;> simp only <;> omega
  have h3 : n = 0 ∨ n = 3 ∨ n = 8 := by
    have : n < 10 := hn
    interval_cases n <;> first
      | decide
      | (exfalso; simp [calmHistory] at ha; subst ha; exact ho)
  have hno : (match (run .empty (calmHistory.take n)).status w with
      | .evaluating _ _ _ => false | _ => true) = true := by
    rcases h3 with rfl | rfl | rfl <;> interval_cases w <;> decide
  rw [hv] at hno
  exact absurd hno (by simp)

/-- In the third run, worker 1 evaluates trial 1, which is stored when it is done. -/
example : Calm calmHistory ∧ (run .empty calmHistory).Evaluates 1 1 4 ∧
    (run .empty (calmHistory ++ [.finish 1])).Stored 1 ⟨5, 4, 0, some 4⟩ :=
  ⟨calmHistory_calm, ⟨4, by decide⟩, by unfold World.Stored; decide⟩

/-- **C162**: a directory without a trial, which a worker of an old run leaves behind, stops the run: until
it is overwritten again, every worker that wants a trial raises, and no configuration is added. -/
theorem C162_blocked (s t : List Event) (hb : ∃ i, (i, Slot.bare) ∈ (run .empty s).slots)
    (ht : NoOverwrite t) :
    (∀ i e, (run .empty (s ++ t)).Stored i e → ∃ e', (run .empty s).Stored i e' ∧ e'.cfg = e.cfg) ∧
      ∀ w id, (run .empty (s ++ t)).status w = .idle →
        (run .empty (s ++ t ++ [.attempt w id])).Raised w := by
  have h := blocked_run (inv_empty.run s) hb t ht
  rw [← run_append] at h
  refine ⟨h.2, ?_⟩
  intro w id hw
  rw [run_append]
  simp only [run, step, attempt, hw, h.1.any, Bool.true_or, if_true]
  simp [World.Raised, upd]

/-- Worker 0 is evaluating when worker 1 overwrites the run; it reports before worker 1 has a trial. -/
def staleHistory : List Event :=
  [.launch 0 false 0, .attempt 0 1, .launch 1 true 0, .finish 0]

/-- **C162 fails** when a worker of the old run is still evaluating: it raises, its report is not stored, and
it leaves a directory with a lock file behind, after which the new run never stores a trial: whoever joins
raises. -/
theorem C162_stale_worker_fails : (run .empty staleHistory).Raised 0 ∧
    ∀ t, NoOverwrite t → (run .empty (staleHistory ++ t)).Nothing ∧
      ∀ w id, (run .empty (staleHistory ++ t)).status w = .idle →
        (run .empty (staleHistory ++ t ++ [.attempt w id])).Raised w := by
  refine ⟨by unfold World.Raised; decide, ?_⟩
  intro t ht
  have h := C162_blocked staleHistory t ⟨1, by decide⟩ ht
  refine ⟨?_, h.2⟩
  intro i e hm
  obtain ⟨e', he, -⟩ := h.1 i e hm
  have : (run .empty staleHistory).slots = [(1, .bare)] := by decide
  simp [World.Stored, this] at he

/-- Worker 1 raises when it tries, and so does worker 2, which joins later. -/
example : (run .empty (staleHistory ++ [.attempt 1 1])).Raised 1 ∧
    (run .empty (staleHistory ++ [.launch 2 false 0, .attempt 2 7])).Raised 2 := by
  unfold World.Raised; decide

/-- **C162 (partial)**: if no worker of the old run is there any more when the run is overwritten, and all
workers of the new run get one search space, every configuration of the new run is from that search space.

Missing: a worker of the old run that is still there (`C162_search_space_fails`). -/
theorem C162_search_space_partial (s t : List Event) (w sp : Nat)
    (hs : ∀ x, (run .empty s).Off x ∨ (run .empty s).Raised x) (hw : (run .empty s).Off w)
    (ht : JoinWith sp t) {i : Nat} {e : Entry}
    (h : (run .empty (s ++ .launch w true sp :: t)).Stored i e) : e.space = sp := by
  rw [run_append] at h
  refine (Same.run (W := step (run .empty s) (.launch w true sp)) ?_ t ht).stored i e h
  simp only [step, launch, show (run .empty s).status w = .off from hw, if_true]
  refine ⟨by simp, ?_⟩
  intro x h1 h2
  simp only at h1 h2 ⊢
  by_cases hx : x = w
  · subst hx; exact upd_same _ _ _
  · rw [upd_other _ _ hx] at h1 h2
    rcases hs x with h | h
    · exact absurd h h1
    · exact absurd h h2

/-- The worker of the old run was killed; two workers share the new run. -/
example : JoinWith 7 [.attempt 1 1, .launch 2 false 7, .attempt 2 2, .finish 1] ∧
    (run .empty ([.launch 0 false 3, .attempt 0 1, .kill 0] ++ .launch 1 true 7 ::
      [.attempt 1 1, .launch 2 false 7, .attempt 2 2, .finish 1])).Stored 2 ⟨2, 2, 7, none⟩ := by
  refine ⟨?_, by unfold World.Stored; decide⟩
  intro a ha w over sp' he
  subst he
  simp at ha
  exact ⟨ha.2.1, ha.2.2⟩

/-- **C162 fails**: a worker of the old run that has no trial when the run is overwritten goes on in the new
run, which gets configurations from the search space of the old one. -/
theorem C162_search_space_fails : ∃ s : List Event, ∃ e,
    (run .empty (s ++ .launch 1 true 7 :: [.attempt 0 1])).Stored 1 e ∧ e.space = 3 ∧
      (run .empty s).Nothing :=
  ⟨[.launch 0 false 3], ⟨0, 0, 3, none⟩, by unfold World.Stored; decide, rfl, by
    intro i e h
    have : (run .empty [.launch 0 false 3]).slots = [] := by decide
    simp [World.Stored, this] at h⟩

/-- **C162 fails** for workers in parallel that all get `overwrite_working_directory=True`, as from one file
of arguments: for every number of reports, a worker that is started after the first has stored them
deletes them. -/
theorem C162_parallel_fails (n : Nat) : ∃ s : List Event,
    (∀ k < n, ∃ e, (run .empty (.launch 0 true 0 :: s)).Stored k e ∧ e.result = some e.cfg) ∧
      (run .empty (.launch 0 true 0 :: s ++ [.launch 1 true 0])).Nothing := by
  refine ⟨(List.range n).flatMap fun k => [.attempt 0 k, .finish 0], ?_, ?_⟩
  · have key : ∀ m, ∃ W, run .empty (.launch 0 true 0 ::
        (List.range m).flatMap fun k => [.attempt 0 k, .finish 0]) = W ∧ Inv W ∧
        W.status 0 = .idle ∧ (∀ i t, (i, t) ∈ W.slots → i < m ∧ t.isBare = false) ∧
        ∀ k < m, ∃ e, W.Stored k e ∧ e.result = some e.cfg := by
      intro m
      induction m with
      | zero =>
        refine ⟨_, rfl, inv_empty.run _, by decide, ?_, by simp⟩
        intro i t h
        exact absurd h (by simp [run, step, launch, World.empty])
      | succ m ih =>
        obtain ⟨W, hW, hi, h1, h2, h3⟩ := ih
        have ha : step W (.attempt 0 m) =
            { W with
              slots := W.slots ++ [(m, .trial ⟨W.fresh, W.fresh, W.space 0, none⟩)]
              fresh := W.fresh + 1
              status := upd W.status 0 (.evaluating m W.fresh W.fresh) } := by
          simp only [step, attempt, h1]
          rw [if_neg]
          simp only [Bool.or_eq_true, not_or]
          constructor
          · intro h
            obtain ⟨⟨i, t⟩, hm, ht⟩ := List.any_eq_true.mp h
            rw [(h2 i t hm).2] at ht
            exact absurd ht (by simp)
          · intro h
            obtain ⟨⟨i, t⟩, hm, ht⟩ := List.any_eq_true.mp h
            have : i = m := by simpa using ht
            have := (h2 i t hm).1
            omega
        have hi1 := hi.step (.attempt 0 m)
        have hmem : (m, Slot.trial ⟨W.fresh, W.fresh, W.space 0, none⟩) ∈
            (step W (.attempt 0 m)).slots := by
          rw [ha]; simp
        have hl := mem_lookup hi1.nodup hmem
        have hf : step (step W (.attempt 0 m)) (.finish 0) =
            { step W (.attempt 0 m) with
              slots := setSlot (step W (.attempt 0 m)).slots m
                (.trial ⟨W.fresh + 1, W.fresh, W.space 0, some W.fresh⟩)
              fresh := W.fresh + 1 + 1
              status := upd (step W (.attempt 0 m)).status 0 .idle } := by
          have hs : (step W (.attempt 0 m)).status 0 = .evaluating m W.fresh W.fresh := by
            rw [ha]; simp [upd]
          have hfr : (step W (.attempt 0 m)).fresh = W.fresh + 1 := by rw [ha]
          simp only [step.eq_3, finish, hs, hl, if_true, hfr]
        refine ⟨step (step W (.attempt 0 m)) (.finish 0), ?_, hi1.step _, ?_, ?_, ?_⟩
        · rw [List.range_succ, List.flatMap_append, ← List.cons_append, run_append, hW]
          rfl
        · rw [hf]; simp [upd]
        · intro i t h
          rw [hf] at h
          rcases mem_setSlot h with h | ⟨rfl, rfl⟩
          · rw [ha] at h
            simp only [List.mem_append, List.mem_singleton, Prod.mk.injEq] at h
            rcases h with h | ⟨rfl, rfl⟩
            · have := h2 i t h
              exact ⟨by omega, this.2⟩
            · exact ⟨by omega, rfl⟩
          · exact ⟨by omega, rfl⟩
        · intro k hk
          rw [hf]
          by_cases hkm : k = m
          · subst hkm
            rcases setSlot_mem (id := k)
              (s := .trial ⟨W.fresh + 1, W.fresh, W.space 0, some W.fresh⟩) hmem with h | h
            · exact ⟨_, h.2, rfl⟩
            · exact absurd rfl h.1
          · obtain ⟨e, he, hr⟩ := h3 k (by omega)
            have he' : (k, Slot.trial e) ∈ (step W (.attempt 0 m)).slots := by
              rw [ha]; exact List.mem_append_left _ he
            rcases setSlot_mem (id := m)
              (s := .trial ⟨W.fresh + 1, W.fresh, W.space 0, some W.fresh⟩) he' with h | h
            · exact absurd h.1 hkm
            · exact ⟨e, h.2, hr⟩
    obtain ⟨W, hW, -, -, -, h⟩ := key n
    rw [hW]
    exact h
  · refine (C162_starts_empty _ 1 0 0 ?_).1
    unfold World.Off
    rw [status_other]
    · rfl
    · intro a ha
      simp only [List.mem_cons, List.mem_flatMap, List.mem_range, List.not_mem_nil, or_false] at ha
      rcases ha with rfl | ⟨k, -, rfl | rfl⟩ <;> simp

end Neps.Overwrite
