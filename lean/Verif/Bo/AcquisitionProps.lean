import Verif.Bo.AcquisitionLemmas

/-!
# C156: the acquisition function is the expected improvement
-/

namespace Verif.Bo.Acq

open MeasureTheory ProbabilityTheory

variable {X : Type}

/-- The configurations that are predicted: with `optimize_on_max_fidelity`, in a space with a fidelity,
those at the maximal fidelity. -/
def Asked (S : Settings) (hasFidelity : Bool) (toMax : X → X) (c : X) : X :=
  if hasFidelity = true ∧ S.onMaxFidelity = true then toMax c else c

theorem eval_some (S : Settings) (best : Incumbent) (noise : ℝ) (model : X → ℝ × ℝ) (hf : Bool)
    (toMax : X → X) (x : List X) (g : X → ℝ) (hx : x ≠ [])
    (h : ∀ c ∈ x, (if S.log then
        logged S.xi best (model (Asked S hf toMax c)).1 (model (Asked S hf toMax c)).2
      else plain S.xi best.val (model (Asked S hf toMax c)).1 (model (Asked S hf toMax c)).2) =
      some (g (Asked S hf toMax c))) :
    eval S best noise model (fun _ => hf) toMax x = some (x.map fun c =>
      if S.augmented then g (Asked S hf toMax c) * augment noise (model (Asked S hf toMax c)).2
      else g (Asked S hf toMax c)) := by
  cases x with
  | nil => exact absurd rfl hx
  | cons a l =>
    have e : (if hf && S.onMaxFidelity then (a :: l).map toMax else a :: l) =
        (a :: l).map (Asked S hf toMax) := by
      unfold Asked
      by_cases hc : hf = true ∧ S.onMaxFidelity = true
      · rw [if_pos (by simp [hc.1, hc.2])]
        simp [hc]
      · rw [if_neg (by simpa using hc)]
        simp [hc]
    unfold eval
    simp only
    rw [e, mapM_some _ (fun c => if S.augmented then g c * augment noise (model c).2 else g c),
      List.map_map]
    · rfl
    · intro b hb
      obtain ⟨c, hc, rfl⟩ := List.mem_map.mp hb
      rw [h c hc]
      rfl

/-- C156: for every surrogate model and every non-empty list of configurations the acquisition function
gives, in their order, the expected improvement of each on the incumbent less `xi` under the predicted
normal distribution, predicted at the maximal fidelity if this is asked for. The variance may be zero
unless the mean is then exactly the target. -/
theorem C156_improvement (S : Settings) (best : Incumbent) (noise : ℝ) (model : X → ℝ × ℝ) (hf : Bool)
    (toMax : X → X) (x : List X) (hx : x ≠ []) (hlog : S.log = false) (haug : S.augmented = false)
    (hv : ∀ c ∈ x, 0 ≤ (model (Asked S hf toMax c)).2)
    (h0 : ∀ c ∈ x, (model (Asked S hf toMax c)).2 = 0 →
      best.val - S.xi ≠ (model (Asked S hf toMax c)).1) :
    eval S best noise model (fun _ => hf) toMax x = some (x.map fun c =>
      ExpectedImprovement (best.val - S.xi) (model (Asked S hf toMax c)).1
        (model (Asked S hf toMax c)).2) := by
  have := eval_some S best noise model hf toMax x
    (fun c => ExpectedImprovement (best.val - S.xi) (model c).1 (model c).2) hx (fun c hc => by
      rw [hlog]
      exact plain_some (hv c hc) (h0 c hc))
  simpa [haug] using this

/-- C156, with `log_ei` and `in_fill="posterior"`: the values are the expected improvements of the
exponentials of target and loss. -/
theorem C156_log_partial (S : Settings) (b noise : ℝ) (model : X → ℝ × ℝ) (hf : Bool)
    (toMax : X → X) (x : List X) (hx : x ≠ []) (hlog : S.log = true) (haug : S.augmented = false)
    (hv : ∀ c ∈ x, 0 ≤ (model (Asked S hf toMax c)).2)
    (h0 : ∀ c ∈ x, (model (Asked S hf toMax c)).2 = 0 →
      b - S.xi ≠ (model (Asked S hf toMax c)).1) :
    eval S (.tensor b) noise model (fun _ => hf) toMax x = some (x.map fun c =>
      ExpectedLogImprovement (b - S.xi) (model (Asked S hf toMax c)).1
        (model (Asked S hf toMax c)).2) := by
  have := eval_some S (.tensor b) noise model hf toMax x
    (fun c => ExpectedLogImprovement (b - S.xi) (model c).1 (model c).2) hx (fun c hc => by
      rw [hlog]
      exact logged_some (hv c hc) (h0 c hc))
  simpa [haug] using this

/-- C156 fails with `log_ei` and the default `in_fill="best"`: whatever was observed and whatever the
model predicts, the evaluation raises an exception. -/
theorem C156_log_fails (S : Settings) (losses means : List ℝ) (noise : ℝ) (model : X → ℝ × ℝ)
    (hf : X → Bool) (toMax : X → X) (x : List X) (hlog : S.log = true) :
    (incumbent .best losses means).bind (fun b => eval S b noise model hf toMax x) = none := by
  cases losses with
  | nil => rfl
  | cons a l =>
    cases x with
    | nil => rfl
    | cons c x =>
      simp only [incumbent, Option.bind_some, eval, hlog, if_true, logged, Option.map_none]
      split <;> simp [List.mapM_cons]

/-- C156: the augmented criterion multiplies the expected improvement of each configuration by a factor
that depends only on its variance, lies between zero and one, grows with the variance and is zero without
variance. -/
theorem C156_augmented (S : Settings) (best : Incumbent) {noise : ℝ} (hn : 0 < noise)
    (model : X → ℝ × ℝ) (hf : Bool) (toMax : X → X) (hlog : S.log = false) (haug : S.augmented = true) :
    ∃ w : ℝ → ℝ, w 0 = 0 ∧ (∀ v, 0 ≤ v → 0 ≤ w v ∧ w v < 1) ∧
      (∀ v v', 0 ≤ v → v < v' → w v < w v') ∧
      ∀ x : List X, x ≠ [] → (∀ c ∈ x, 0 < (model (Asked S hf toMax c)).2) →
        eval S best noise model (fun _ => hf) toMax x = some (x.map fun c =>
          ExpectedImprovement (best.val - S.xi) (model (Asked S hf toMax c)).1
            (model (Asked S hf toMax c)).2 * w (model (Asked S hf toMax c)).2) := by
  have hs := Real.sqrt_pos.mpr hn
  have mono : ∀ v v', 0 ≤ v → v < v' → augment noise v < augment noise v' := by
    intro v v' h0 h
    have h1 : 0 < Real.sqrt (noise + v) := Real.sqrt_pos.mpr (by linarith)
    have h2 : Real.sqrt (noise + v) < Real.sqrt (noise + v') :=
      Real.sqrt_lt_sqrt (by linarith) (by linarith)
    have := div_lt_div_of_pos_left hs h1 h2
    unfold augment
    linarith
  have zero : augment noise 0 = 0 := by
    unfold augment
    rw [add_zero, div_self hs.ne', sub_self]
  refine ⟨augment noise, zero, ?_, mono, ?_⟩
  · intro v h0
    constructor
    · rcases eq_or_lt_of_le h0 with h | h
      · rw [← h, zero]
      · exact zero ▸ (mono 0 v le_rfl h).le
    · have : 0 < Real.sqrt noise / Real.sqrt (noise + v) :=
        div_pos hs (Real.sqrt_pos.mpr (by linarith))
      unfold augment
      linarith
  · intro x hx hv
    have := eval_some S best noise model hf toMax x
      (fun c => ExpectedImprovement (best.val - S.xi) (model c).1 (model c).2) hx (fun c hc => by
        rw [hlog]
        exact plain_some (hv c hc).le fun h => absurd h (hv c hc).ne')
    simpa [haug] using this

/-- C156: no value is negative, and a configuration with a lower mean and a greater variance than another
is not valued less. -/
theorem C156_order (S : Settings) (best : Incumbent) (noise : ℝ) (model : X → ℝ × ℝ) (hf : Bool)
    (toMax : X → X) (a b : X) (hlog : S.log = false) (haug : S.augmented = false)
    (hmu : (model (Asked S hf toMax a)).1 ≤ (model (Asked S hf toMax b)).1)
    (hvar : (model (Asked S hf toMax b)).2 ≤ (model (Asked S hf toMax a)).2)
    (hv : 0 < (model (Asked S hf toMax b)).2) :
    ∃ p q, eval S best noise model (fun _ => hf) toMax [a, b] = some [p, q] ∧ 0 ≤ q ∧ q ≤ p := by
  have h := C156_improvement S best noise model hf toMax [a, b] (by simp) hlog haug
    (by
      intro c hc
      rcases List.mem_pair.mp hc with rfl | rfl
      · exact hv.le.trans hvar
      · exact hv.le)
    (by
      intro c hc h0
      rcases List.mem_pair.mp hc with rfl | rfl <;> linarith)
  refine ⟨_, _, h, ei_nonneg _ _ _, ?_⟩
  exact (ei_mean _ hv.le hmu).trans (ei_variance _ _ hv.le hvar)

/-- C156: with `in_fill="best"` the incumbent is the least loss observed. -/
theorem C156_best (losses means : List ℝ) (h : losses ≠ []) :
    ∃ y ∈ losses, incumbent .best losses means = some (.number y) ∧ ∀ z ∈ losses, y ≤ z := by
  cases losses with
  | nil => exact absurd rfl h
  | cons a l => exact ⟨_, foldl_min_mem l a, rfl, foldl_min_le l a⟩

/-- C156: with `in_fill="posterior"` the incumbent is the loss observed at the first configuration with
the least predicted mean. -/
theorem C156_posterior_partial (losses means : List ℝ) (h : losses ≠ [])
    (hl : means.length = losses.length) :
    ∃ (i : ℕ) (y m : ℝ), losses[i]? = some y ∧ means[i]? = some m ∧
      (∀ (j : ℕ) (a : ℝ), means[j]? = some a → m ≤ a ∧ (j < i → m < a)) ∧
      incumbent .posterior losses means = some (.tensor y) := by
  cases means with
  | nil =>
    cases losses with
    | nil => exact absurd rfl h
    | cons a l => simp at hl
  | cons a l =>
    obtain ⟨m, h1, h2⟩ := argmin_spec (l := a :: l) (i := argminFrom 1 (a, 0) l) rfl
    have hi : argminFrom 1 (a, 0) l < losses.length := hl ▸ (List.getElem?_eq_some_iff.mp h1).1
    refine ⟨_, losses[argminFrom 1 (a, 0) l], m, List.getElem?_eq_getElem hi, h1, h2, ?_⟩
    simp [incumbent, argmin, List.getElem?_eq_getElem hi]

/-- C156 fails for `in_fill="posterior"`, described as the best posterior mean: the incumbent is not a
predicted mean at all but an observed loss, here one that is worse than another observed. -/
theorem C156_posterior_fails :
    ∃ losses means : List ℝ, losses.length = means.length ∧
      ∃ y, incumbent .posterior losses means = some (.tensor y) ∧ y ∉ means ∧ ∃ z ∈ losses, z < y := by
  refine ⟨[3, 1], [1 / 2, 2], rfl, 3, ?_, ?_, 1, by simp, by norm_num⟩
  · have : ¬ ((2 : ℝ) < 2⁻¹) := by norm_num
    simp [incumbent, argmin, argminFrom, this]
  · norm_num

/-- C156 fails for a prediction without variance that equals the target: the evaluation of the whole list
raises an exception. -/
theorem C156_certain_fails (S : Settings) (best : Incumbent) (noise : ℝ) (model : X → ℝ × ℝ)
    (toMax : X → X) (x : List X) (hlog : S.log = false) (c : X) (hc : c ∈ x)
    (hm : model c = (best.val - S.xi, 0)) :
    eval S best noise model (fun _ => false) toMax x = none := by
  have key : ∀ l : List X, c ∈ l → (l.mapM fun e =>
      (plain S.xi best.val (model e).1 (model e).2).map fun ei =>
        if S.augmented then ei * augment noise (model e).2 else ei) = none := by
    intro l
    induction l with
    | nil => simp
    | cons a l ih =>
      intro h
      rw [List.mapM_cons]
      rcases List.mem_cons.mp h with rfl | h
      · simp [hm, plain]
      · rw [ih h]
        cases (plain S.xi best.val (model a).1 (model a).2) <;> rfl
  cases x with
  | nil => simp at hc
  | cons a l => simpa [eval, hlog] using key (a :: l) hc

/-- C156: the confidence bound is the mean plus `√beta` standard deviations when maximizing, and when
minimizing the negative of the mean less `√beta` standard deviations, so that the greatest value belongs
to the best bound. -/
theorem C156_bound (beta mu var : ℝ) :
    ucb beta true mu var = mu + Real.sqrt beta * Real.sqrt var ∧
    ucb beta false mu var = -(mu - Real.sqrt beta * Real.sqrt var) := by
  constructor
  · simp [ucb]
  · simp [ucb]
    ring

/-- C156 fails for the confidence bound whose `beta` is to be updated with the state: every update
raises an exception. -/
theorem C156_beta_fails (beta new : ℝ) : ucbState beta (some new) = none := rfl

/-- The settings of the examples. -/
noncomputable def exSettings (augmented log : Bool) : Settings := ⟨augmented, 1 / 10, log, true⟩

/-- Non-vacuity: two configurations of a space with a fidelity, with different predictions. -/
example : ∃ p q, eval (exSettings false false) (.number 1) 0
    (fun c : ℕ × ℕ => if c.1 = 0 then (1, 2) else (2, 1))
    (fun _ => true) (fun c => (c.1, 9)) [(0, 1), (1, 1)] = some [p, q] ∧ 0 ≤ q ∧ q ≤ p :=
  C156_order _ _ _ _ true _ _ _ rfl rfl
    (by norm_num [Asked, exSettings]) (by norm_num [Asked, exSettings]) (by norm_num [Asked, exSettings])

example : eval (exSettings false true) (.tensor 1) 0 (fun c : ℕ => ((c : ℝ), 2)) (fun _ => false) id
    [0, 1] = some [ExpectedLogImprovement (1 - 1 / 10) 0 2, ExpectedLogImprovement (1 - 1 / 10) 1 2] := by
  have := C156_log_partial (exSettings false true) 1 0 (fun c : ℕ => ((c : ℝ), 2)) false id [0, 1]
    (by simp) rfl rfl (by simp) (by simp)
  simpa [exSettings, Asked] using this

end Verif.Bo.Acq
