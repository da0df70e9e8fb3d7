import Verif.Seed.Endless

/-!
# C149 Runs reach the number of evaluations they are asked for

`C147_job_done` supposes that the optimizer answers, with new ids. Here the answers are computed from the
stored trials and the generators, by random search, Bayesian optimization, hyperband and asynchronous
hyperband.
-/

namespace Neps.Seed

open Neps.Run Neps.MF

variable {G O E : Type}

/-- Every answer is a new configuration whose id is one more than the number of trials. -/
def FromOne (A : Optimizer G O E) : Prop :=
  ∀ o e ts b r s o' r', A.ask o e ts b r = some (s, o', r') →
    s.id = String.ofList (Ids.natStr (ts.length + 1)) ∧ s.previousId = none

/-- The ids of the proposals are 1, 2, 3, and so on. -/
def FromOneInv (W : SWorld G O E) : Prop :=
  (proposals W).map (·.id) =
    (List.range (proposals W).length).map (fun i => String.ofList (Ids.natStr (i + 1)))

theorem FromOneInv.sample {A : Optimizer G O E} (hA : FromOne A) {fs st} {W : SWorld G O E}
    (L : LogEq fs W) (I : FromOneInv W) {w c e d} : FromOneInv (sample A fs st W w c e d) := by
  unfold Seed.sample
  split
  · exact I
  · next h s o r hp =>
    simp only
    split
    · exact I
    · obtain ⟨snap, -, -, hseen, -, hask⟩ := propose_some hp
      obtain ⟨hid, -⟩ := hA _ _ _ _ _ _ _ _ hask
      have hlen : h.2.1.length = W.asked.length := by
        rw [(seen_perm hseen).length_eq, List.length_map]
        have := congrArg List.length L.eq
        rw [List.length_map] at this
        rw [this, proposals, List.length_map]
      unfold FromOneInv proposals at I ⊢
      simp only [List.length_map] at I
      simp only [List.map_append, List.map_cons, List.map_nil, List.length_append, List.length_map,
        List.length_singleton, List.range_succ, I, hid, hlen]

theorem FromOneInv.act {A : Optimizer G O E} (hA : FromOne A) {fs st} {W : SWorld G O E}
    (L : LogEq fs W) (I : FromOneInv W) (a : SAct G E) : FromOneInv (sact A fs st W a) := by
  cases a with
  | killSampling w c e =>
    simp only [sact]
    split
    · exact I.sample hA L
    · exact I
  | act a e noise =>
    cases a with
    | step w c =>
      simp only [sact]
      split
      · exact I.sample hA L
      · exact I
    | kill w => exact I
    | killCreating w c torn => exact I

theorem fromOneInv_run {A : Optimizer G O E} (hA : FromOne A) {fs st} (as : List (SAct G E))
    {W : SWorld G O E} (L : LogEq fs W) (I : FromOneInv W) : FromOneInv (srun A fs st W as) := by
  induction as generalizing W with
  | nil => exact I
  | cons a as ih => exact ih (L.act a) (I.act hA L a)

/-- The ids of the readable trials of a run are 1, 2, 3, and so on, in the order of creation. -/
theorem fromOne_ids {A : Optimizer G O E} (hA : FromOne A) (fs st r₀ rng) (as : List (SAct G E)) :
    let W := (srun A fs st (start A r₀ rng) as).base
    W.trials.map (·.metadata.id) =
      (List.range W.trials.length).map (fun i => String.ofList (Ids.natStr (i + 1))) := by
  intro W
  have L := (logEq_start A fs r₀ rng).run (A := A) (st := st) as
  have I := fromOneInv_run hA (st := st) as (logEq_start A fs r₀ rng) (by
    simp [FromOneInv, proposals, start])
  unfold FromOneInv at I
  rw [← L.eq, List.map_map, List.length_map] at I
  exact I

/-- An optimizer that always answers, with such ids, stores a trial whenever it is asked. -/
theorem stores_of_fromOne {A : Optimizer G O E} (hA : FromOne A)
    (ht : ∀ o e ts b r, (A.ask o e ts b r).isSome) (fs st r₀ rng) : Stores A fs st r₀ rng (fun _ => True) := by
  intro as w c e noise W hread hal hpc _
  obtain ⟨ts, hts⟩ := mapM_total (l := listing W.base c) (f := fun id =>
      match Store.load (W.base.disk id) with
      | .ok h => some (view h.cur)
      | .error _ => none) (by
    intro id hid
    obtain ⟨t, ht⟩ := Option.isSome_iff_exists.mp (hread id ((listing_perm _ _).subset hid))
    obtain ⟨v, hv⟩ := stored_load ht
    simp [hv])
  have hseen : seen W.base c = some ts := hts
  obtain ⟨snap, hsnap⟩ := Option.isSome_iff_exists.mp
    (seed_readable A fs st (W := start A r₀ rng) (by simp [start, SeedDir.write, SeedDir.read]) as)
  have hsnap' : W.seed.read = some snap := hsnap
  obtain ⟨⟨s, o, r⟩, hask⟩ := Option.isSome_iff_exists.mp
    (ht (W.opt w) e ts W.base.budget (snap.setGlobal (W.rng w)))
  obtain ⟨hid, hprev⟩ := hA _ _ _ _ _ _ _ _ hask
  have hp : propose A W w c e = some ((e, ts, W.base.budget), s, o, r) := by
    simp [propose, hseen, hsnap', hask]
  have hs : samples W.base w = true := by simp [samples, hal, hpc]
  have C : Coh fs W.base := ((logEq_start A fs r₀ rng).run (A := A) (st := st) as).coh
  have hnew : s.id ∉ W.base.ids := by
    rw [← trials_of_readable hread C.names, fromOne_ids hA fs st r₀ rng as, hid,
      (seen_perm hseen).length_eq, List.length_map]
    simp only [List.mem_map, List.mem_range, not_exists, not_and]
    intro m hm hme
    have := Ids.natStr_injective (String.ofList_injective hme)
    change m < W.base.trials.length at hm
    omega
  rw [sact_step_base]
  simp only [baseAct, hs, if_true, hp, Option.map_some]
  have hprep : prepareSample W.base s = some none := by
    unfold prepareSample
    rw [if_pos]
    · simp [hprev]
    · rw [List.all_eq_true]
      intro id hid
      obtain ⟨t, ht⟩ := Option.isSome_iff_exists.mp (hread id hid)
      obtain ⟨v, hv⟩ := stored_load ht
      simp [hv]
  have hver : (W.base.disk s.id).ver = none := (C.fresh _ hnew).1
  simp [act, hal, stepW, hpc, hprep, hnew, Store.new, hver]

theorem randomSearch_fromOne (draw : Rng G → List (String × PyVal) × Rng G) :
    FromOne (randomSearch draw) := by
  intro o e ts b r s o' r' h
  simp only [randomSearch, Option.some.injEq, Prod.mk.injEq] at h
  obtain ⟨rfl, -, -⟩ := h
  exact ⟨rfl, rfl⟩

theorem bayesian_fromOne (design : Rng G → List (List (String × PyVal)) × Rng G)
    (model : List View → PyFloat → Rng G → Option (List (String × PyVal) × Rng G)) :
    FromOne (bayesian design model) := by
  intro o e ts b r s o' r' h
  simp only [bayesian] at h
  split at h
  · simp only [Option.some.injEq, Prod.mk.injEq] at h
    obtain ⟨rfl, -, -⟩ := h
    exact ⟨rfl, rfl⟩
  · simp only [Option.map_eq_some_iff, Prod.mk.injEq] at h
    obtain ⟨p, -, rfl, -, -⟩ := h
    exact ⟨rfl, rfl⟩

/-- What a finished run looks like: at least `N` trials, all of them evaluated, a worker has returned
from `neps.run` because the limit is reached, and no worker runs any more. -/
def Finished (n N : Nat) (W : World) : Prop :=
  N ≤ W.trials.length ∧ (∀ t ∈ W.trials, Evaluated t) ∧
  (∃ w < n, (W.worker w).pc = .stopped .evalsTotal) ∧ ∀ w < n, Through W w

/-- An endless schedule of `n` workers none of which is killed: every worker gets its turn again and
again, and the results of the objective can be understood. -/
structure Scheduled (fs : String → Option PyFloat) (st : Nat → Run.Settings) (n : Nat)
    (τ : Nat → SAct G E) : Prop where
  steps : ∀ i, ∃ w < n, ∃ c e noise, τ i = .act (.step w c) e noise
  fair : ∀ w < n, ∀ k, ∃ j ≥ k, ∃ c e noise, τ j = .act (.step w c) e noise
  parsed : ∀ i w c e noise v, τ i = .act (.step w c) e noise → c.outcome = .returned v →
    ∃ p, parseUserResult fs v (st w).dv.costIfNotProvided
      (st w).dv.learningCurveIfNotProvided = .ok p

/-- **C149**: any number of workers with random search do the evaluations they are asked for. -/
theorem C149_random_search (draw : Rng G → List (String × PyVal) × Rng G)
    (fs : String → Option PyFloat) (st : Nat → Run.Settings) (r₀ : Rng G) (rng : Nat → Rng G)
    (n N : Nat) (inc : Bool) (hn : 0 < n)
    (hs : ∀ w < n, OnlyTotal (st w) N ∧ (st w).includeInProgress = inc)
    (τ : Nat → SAct G Unit) (hτ : Scheduled fs st n τ) :
    ∃ k, ∀ j ≥ k, Finished n N (safter (randomSearch draw) fs st r₀ rng τ j).base :=
  stores_job_done _ fs st r₀ rng (stores_of_fromOne (randomSearch_fromOne draw)
    (by intro o e ts b r; simp [randomSearch]) fs st r₀ rng) n N inc hn hs τ hτ.steps hτ.fair hτ.parsed
    (fun _ => trivial)

/-- **C149**: the same for Bayesian optimization, if its model always makes a proposal. -/
theorem C149_bayesian (design : Rng G → List (List (String × PyVal)) × Rng G)
    (model : List View → PyFloat → Rng G → Option (List (String × PyVal) × Rng G))
    (hm : ∀ ts b r, (model ts b r).isSome)
    (fs : String → Option PyFloat) (st : Nat → Run.Settings) (r₀ : Rng G) (rng : Nat → Rng G)
    (n N : Nat) (inc : Bool) (hn : 0 < n)
    (hs : ∀ w < n, OnlyTotal (st w) N ∧ (st w).includeInProgress = inc)
    (τ : Nat → SAct G Unit) (hτ : Scheduled fs st n τ) :
    ∃ k, ∀ j ≥ k, Finished n N (safter (bayesian design model) fs st r₀ rng τ j).base :=
  stores_job_done _ fs st r₀ rng (stores_of_fromOne (bayesian_fromOne design model) (by
    intro o e ts b r
    simp only [bayesian]
    split
    · rfl
    · simp [hm]) fs st r₀ rng) n N inc hn hs τ hτ.steps hτ.fair hτ.parsed
    (fun _ => trivial)

variable {P F : Type}

/-- Every call of the objective returns, or failed evaluations are handled by a loss value. -/
def FailuresHandled (ms : MF.Settings) (τ : Nat → SAct G E) : Prop :=
  (∀ i w c e noise, τ i = .act (.step w c) e noise → ∃ v, c.outcome = .returned v) ∨
  ms.ignoreErrors = false ∧ ms.lossOnError ≠ none

theorem failures_handled (A : Optimizer G O E) (fs : String → Option PyFloat) (st : Nat → Run.Settings)
    (r₀ : Rng G) (rng : Nat → Rng G) {τ : Nat → SAct G E} {n : Nat} {ms : MF.Settings}
    (hτ : Scheduled fs st n τ) (h : FailuresHandled ms τ) (i : Nat) :
    ∀ t ∈ (safter A fs st r₀ rng τ i).base.trials, Failed t →
      ms.ignoreErrors = false ∧ ms.lossOnError ≠ none := by
  rcases h with h | h
  · intro t ht hf
    refine absurd hf (safter_no_failure A fs st r₀ rng τ ?_ i t ht)
    intro i
    obtain ⟨w, _, c, e, noise, h'⟩ := hτ.steps i
    exact ⟨w, c, e, noise, h', h i w c e noise h'⟩
  · exact fun _ _ _ => h

/-- **C149 (partial)**: the same for hyperband, if no evaluation fails, or failed evaluations are
handled by a loss value. Missing: failed evaluations that are ignored (`C149_ignore_errors_fails`). -/
theorem C149_hyperband_partial {K : Codec P F} (hK : K.Faithful) {M : MFParts G E P F}
    {ms : MF.Settings} {budget : Nat → F} {bs : Nat → Bracket F} {nb : Nat}
    (hbud : ∀ i, i < nb → Agrees (bs i) budget) (hg : ∀ i, i < nb → Good (bs i)) (hnb : 0 < nb)
    (hM : ∀ r, IsHB ms bs nb (M.choose r).1)
    (fs : String → Option PyFloat) (st : Nat → Run.Settings) (r₀ : Rng G) (rng : Nat → Rng G)
    (n N : Nat) (inc : Bool) (hn : 0 < n)
    (hs : ∀ w < n, OnlyTotal (st w) N ∧ (st w).includeInProgress = inc)
    (τ : Nat → SAct G E) (hτ : Scheduled fs st n τ) (hfail : FailuresHandled ms τ) :
    ∃ k, ∀ j ≥ k, Finished n N (safter (multiFidelity K M) fs st r₀ rng τ j).base := by
  refine stores_job_done _ fs st r₀ rng (R := fun W => ∀ t ∈ W.trials, Failed t →
    ms.ignoreErrors = false ∧ ms.lossOnError ≠ none) ?_ n N inc hn hs τ hτ.steps hτ.fair hτ.parsed
    (failures_handled _ fs st r₀ rng hτ hfail)
  intro as w c e noise W h1 h2 h3 h4
  obtain ⟨id, t, -, h, -⟩ :=
    C72_hb_sampling_partial hK hbud hg hnb hM fs st r₀ rng as w c e noise h1 h2 h3 h4
  change _ = W.base.ids ++ [id] at h
  rw [h]
  simp

/-- **C149 (partial)**: the same for asynchronous hyperband. -/
theorem C149_async_hyperband_partial {K : Codec P F} (hK : K.Faithful) {M : MFParts G E P F}
    {ms : MF.Settings} {budget : Nat → F} {bs : Nat → Bracket F} {nb : Nat}
    (hbud : ∀ i, i < nb → Agrees (bs i) budget) (hnb : 0 < nb)
    (hM : ∀ r, IsAHB ms bs nb (M.choose r).1)
    (fs : String → Option PyFloat) (st : Nat → Run.Settings) (r₀ : Rng G) (rng : Nat → Rng G)
    (n N : Nat) (inc : Bool) (hn : 0 < n)
    (hs : ∀ w < n, OnlyTotal (st w) N ∧ (st w).includeInProgress = inc)
    (τ : Nat → SAct G E) (hτ : Scheduled fs st n τ) (hfail : FailuresHandled ms τ) :
    ∃ k, ∀ j ≥ k, Finished n N (safter (multiFidelity K M) fs st r₀ rng τ j).base := by
  refine stores_job_done _ fs st r₀ rng (R := fun W => ∀ t ∈ W.trials, Failed t →
    ms.ignoreErrors = false ∧ ms.lossOnError ≠ none) ?_ n N inc hn hs τ hτ.steps hτ.fair hτ.parsed
    (failures_handled _ fs st r₀ rng hτ hfail)
  intro as w c e noise W h1 h2 h3 h4
  obtain ⟨id, t, -, h, -⟩ :=
    C72_ahb_sampling_partial hK hbud hnb hM fs st r₀ rng as w c e noise h1 h2 h3 h4
  change _ = W.base.ids ++ [id] at h
  rw [h]
  simp

/-- **C149 (partial)**: the same for successive halving. -/
theorem C149_successive_halving_partial {K : Codec P F} (hK : K.Faithful) {M : MFParts G E P F}
    {ms : MF.Settings} {budget : Nat → F} {b : Bracket F} (hbud : Agrees b budget) (hg : Good b)
    (hM : ∀ r, IsSH ms b (M.choose r).1)
    (fs : String → Option PyFloat) (st : Nat → Run.Settings) (r₀ : Rng G) (rng : Nat → Rng G)
    (n N : Nat) (inc : Bool) (hn : 0 < n)
    (hs : ∀ w < n, OnlyTotal (st w) N ∧ (st w).includeInProgress = inc)
    (τ : Nat → SAct G E) (hτ : Scheduled fs st n τ) (hfail : FailuresHandled ms τ) :
    ∃ k, ∀ j ≥ k, Finished n N (safter (multiFidelity K M) fs st r₀ rng τ j).base := by
  refine stores_job_done _ fs st r₀ rng (R := fun W => ∀ t ∈ W.trials, Failed t →
    ms.ignoreErrors = false ∧ ms.lossOnError ≠ none) ?_ n N inc hn hs τ hτ.steps hτ.fair hτ.parsed
    (failures_handled _ fs st r₀ rng hτ hfail)
  intro as w c e noise W h1 h2 h3 h4
  obtain ⟨id, t, -, h, -⟩ :=
    C72_sh_sampling_partial hK hbud hg hM fs st r₀ rng as w c e noise h1 h2 h3 h4
  change _ = W.base.ids ++ [id] at h
  rw [h]
  simp

/-- **C149 (partial)**: the same for ASHA without early stopping. -/
theorem C149_asha_partial {K : Codec P F} (hK : K.Faithful) {M : MFParts G E P F}
    {ms : MF.Settings} {budget : Nat → F} {b : Bracket F} (hbud : Agrees b budget) (hmin : b.minR = 0)
    (hM : ∀ r, IsASHA ms b (M.choose r).1)
    (fs : String → Option PyFloat) (st : Nat → Run.Settings) (r₀ : Rng G) (rng : Nat → Rng G)
    (n N : Nat) (inc : Bool) (hn : 0 < n)
    (hs : ∀ w < n, OnlyTotal (st w) N ∧ (st w).includeInProgress = inc)
    (τ : Nat → SAct G E) (hτ : Scheduled fs st n τ) (hfail : FailuresHandled ms τ) :
    ∃ k, ∀ j ≥ k, Finished n N (safter (multiFidelity K M) fs st r₀ rng τ j).base := by
  refine stores_job_done _ fs st r₀ rng (R := fun W => ∀ t ∈ W.trials, Failed t →
    ms.ignoreErrors = false ∧ ms.lossOnError ≠ none) ?_ n N inc hn hs τ hτ.steps hτ.fair hτ.parsed
    (failures_handled _ fs st r₀ rng hτ hfail)
  intro as w c e noise W h1 h2 h3 h4
  obtain ⟨id, t, -, h, -⟩ :=
    C72_asha_sampling_partial hK hbud hmin hM fs st r₀ rng as w c e noise h1 h2 h3 h4
  change _ = W.base.ids ++ [id] at h
  rw [h]
  simp

/-! ## An ignored failure -/

/-- Successive halving with one bracket and `ignore_errors`. -/
def ignoringParts : MFParts Nat Unit Nat Nat where
  choose r := (shAsk { ignoreErrors := true } oneBracket argsort, r)
  draw _ _ r := (r.np, { r with np := r.np + 1 })
  interleave _ := false

/-- One worker. The objective raises in its first call and returns a loss in all others. -/
def failsOnce (i : Nat) : SAct Nat Unit :=
  .act (.step 0 { outcome := if i < 10 then .raised ⟨"ValueError", "", true⟩ "" else .returned (.float (.num 1)) })
    () (gens i)

theorem raised_stays {A : Optimizer G O E} {fs : String → Option PyFloat} {st : Nat → Run.Settings}
    {r₀ : Rng G} {rng : Nat → Rng G} {τ : Nat → SAct G E} {K : Nat} {e : RunErr}
    (hτ : ∀ i, ∃ c e noise, τ i = .act (.step 0 c) e noise)
    (hK : ((safter A fs st r₀ rng τ K).base.worker 0).pc = .raised e) (j : Nat) :
    ((safter A fs st r₀ rng τ (K + j)).base.worker 0).pc = .raised e := by
  induction j with
  | zero => exact hK
  | succ j ih =>
    obtain ⟨c, e', noise, h⟩ := hτ (K + j)
    rw [← Nat.add_assoc, safter_succ, h]
    have hs : samples (safter A fs st r₀ rng τ (K + j)).base 0 = false := by simp [samples, ih]
    simp only [sact, hs, Bool.false_eq_true, if_false, Run.act]
    split
    · simp only [stepW, ih]
    · exact ih

set_option maxRecDepth 8000 in
/-- **C149 fails** for `ignore_errors`: one evaluation that fails, and is ignored as it was asked for, and
the run of a single worker with successive halving ends with an exception after two of ten
evaluations. -/
theorem C149_ignore_errors_fails :
    ∃ (M : MFParts Nat Unit Nat Nat) (τ : Nat → SAct Nat Unit),
      (∀ r, IsSH { ignoreErrors := true } oneBracket (M.choose r).1) ∧ Good oneBracket ∧
      (∀ w < 1, OnlyTotal (Run.limited 10 w) 10) ∧
      Scheduled Run.noFloat (Run.limited 10) 1 τ ∧
      ∃ k, ∀ j ≥ k,
        let W := (safter (multiFidelity demoCodec M) Run.noFloat (Run.limited 10) (gens 0)
          (fun _ => gens 1) τ j).base
        (W.worker 0).pc = .raised .failedToGetNext ∧ ¬ Finished 1 10 W := by
  refine ⟨ignoringParts, failsOnce, fun _ => ⟨_, argsort_sorts, rfl⟩, ⟨by decide, by decide, by decide,
    by decide⟩, fun _ _ => ⟨rfl, rfl, rfl, rfl, rfl, rfl, rfl, rfl⟩, ?_, 40, ?_⟩
  · refine ⟨fun i => ⟨0, by omega, _, _, _, rfl⟩, fun w hw k => ⟨k, le_refl _, ?_⟩, ?_⟩
    · obtain rfl : w = 0 := by omega
      exact ⟨_, _, _, rfl⟩
    · intro i w c e noise v h hv
      simp only [failsOnce, SAct.act.injEq, Act.step.injEq] at h
      obtain ⟨⟨rfl, rfl⟩, -⟩ := h
      dsimp only at hv
      split at hv
      · simp at hv
      · simp only [Outcome.returned.injEq] at hv
        subst hv
        exact ⟨_, rfl⟩
  · intro j hj W
    have hW : (W.worker 0).pc = .raised .failedToGetNext := by
      have := raised_stays (A := multiFidelity demoCodec ignoringParts) (fs := Run.noFloat)
        (st := Run.limited 10) (r₀ := gens 0) (rng := fun _ => gens 1) (τ := failsOnce) (K := 40)
        (e := .failedToGetNext) (fun i => ⟨_, _, _, rfl⟩) (by decide +kernel) (j - 40)
      rw [show 40 + (j - 40) = j by omega] at this
      exact this
    refine ⟨hW, ?_⟩
    rintro ⟨-, -, ⟨w, hw, h⟩, -⟩
    obtain rfl : w = 0 := by omega
    rw [hW] at h
    simp at h

set_option maxRecDepth 8000 in
/-- One evaluation crashed, the other one succeeded. -/
example : (safter (multiFidelity demoCodec ignoringParts) Run.noFloat (Run.limited 10) (gens 0)
    (fun _ => gens 1) failsOnce 40).base.trials.map (·.state) = [.crashed, .success] := by
  decide +kernel

/-! ## Cases that meet the hypotheses -/

/-- Three workers that take turns. -/
def threeInTurn (i : Nat) : SAct Nat Unit :=
  .act (.step (i % 3) { outcome := .returned (.float (.num 1)) }) () (gens i)

theorem threeInTurn_scheduled (N : Nat) : Scheduled Run.noFloat (Run.limited N) 3 threeInTurn where
  steps i := ⟨i % 3, Nat.mod_lt _ (by omega), _, _, _, rfl⟩
  fair w hw k := by
    refine ⟨3 * k + w, by omega, { outcome := .returned (.float (.num 1)) }, (), gens (3 * k + w), ?_⟩
    unfold threeInTurn
    have : (3 * k + w) % 3 = w := by omega
    rw [this]
  parsed i w c e noise v h hv := by
    simp only [threeInTurn, SAct.act.injEq, Act.step.injEq] at h
    obtain ⟨⟨rfl, rfl⟩, -⟩ := h
    simp only [Outcome.returned.injEq] at hv
    subst hv
    exact ⟨_, rfl⟩

/-- Random search, three workers, ten evaluations. -/
example : ∃ k, ∀ j ≥ k, Finished 3 10 (safter (randomSearch drawNat) Run.noFloat (Run.limited 10)
    (gens 0) (fun _ => gens 1) threeInTurn j).base :=
  C149_random_search drawNat Run.noFloat (Run.limited 10) (gens 0) (fun _ => gens 1) 3 10 true (by omega)
    (fun _ _ => ⟨⟨rfl, rfl, rfl, rfl, rfl, rfl, rfl, rfl⟩, rfl⟩) threeInTurn (threeInTurn_scheduled 10)

/-- Hyperband with two rungs, three workers, ten evaluations. -/
example : ∃ k, ∀ j ≥ k, Finished 3 10 (safter (multiFidelity demoCodec (demoParts (fun _ : Unit => false)))
    Run.noFloat (Run.limited 10) (gens 0) (fun _ => gens 1) threeInTurn j).base :=
  C149_hyperband_partial demoCodec_faithful twoRungs_agree twoRungs_good (by omega) (demoParts_hb _)
    Run.noFloat (Run.limited 10) (gens 0) (fun _ => gens 1) 3 10 true (by omega)
    (fun _ _ => ⟨⟨rfl, rfl, rfl, rfl, rfl, rfl, rfl, rfl⟩, rfl⟩) threeInTurn (threeInTurn_scheduled 10)
    (Or.inl (by
      intro i w c e noise h
      simp only [threeInTurn, SAct.act.injEq, Act.step.injEq] at h
      obtain ⟨⟨-, rfl⟩, -⟩ := h
      exact ⟨_, rfl⟩))

end Neps.Seed
