import Verif.PriorBand.Spec
import Verif.MF.Promo
import Mathlib.Tactic.Linarith
import Mathlib.Tactic.Positivity
import Mathlib.Tactic.FieldSimp
import Mathlib.Tactic.NormNum

/-!
# The weights of the sampling policies (C42)
-/

namespace Verif.PriorBand

open Neps Neps.MF

/-! ## Lemmas -/

theorem rankedSum_nonneg {xs : List ℝ} (h : ∀ x ∈ xs, 0 ≤ x) : 0 ≤ rankedSum xs := by
  induction xs with
  | nil => simp [rankedSum]
  | cons x xs ih =>
    have h1 := h x (by simp)
    have h2 := ih fun y hy => h y (by simp [hy])
    simp only [rankedSum]
    positivity

theorem rankedSum_pos {xs : List ℝ} (h : ∀ x ∈ xs, 0 < x) (hne : xs ≠ []) : 0 < rankedSum xs := by
  cases xs with
  | nil => exact absurd rfl hne
  | cons x xs =>
    have h1 := h x (by simp)
    have h2 := rankedSum_nonneg (xs := xs) fun y hy => (h y (by simp [hy])).le
    simp only [rankedSum]
    positivity

theorem rankedSum_le : ∀ {xs ys : List ℝ}, List.Forall₂ (· ≤ ·) xs ys →
    rankedSum xs ≤ rankedSum ys
  | _, _, .nil => le_refl _
  | x :: xs, y :: ys, .cons h hs => by
    have h1 := rankedSum_le hs
    have h2 : xs.length = ys.length := hs.length_eq
    simp only [rankedSum, h2]
    have : x * ((ys.length : ℝ) + 1) ≤ y * ((ys.length : ℝ) + 1) :=
      mul_le_mul_of_nonneg_right h (by positivity)
    linarith

theorem rankedSum_byRank (xs : List ℝ) : rankedSum xs = ByRank xs := by
  induction xs with
  | nil => simp [rankedSum, ByRank]
  | cons x xs ih =>
    rw [rankedSum, ih]
    unfold ByRank
    rw [List.length_cons, List.range_succ_eq_map, List.map_cons, List.sum_cons, List.map_map]
    simp only [Nat.sub_zero, List.getD_cons_zero, Function.comp_def, List.getD_cons_succ]
    have : ∀ i : ℕ, xs.length + 1 - Nat.succ i = xs.length - i := by intro i; omega
    simp only [this]
    push_cast
    ring

theorem ratioOfScores_ok {scores : List (ℝ × ℝ)} (h : ∀ s ∈ scores, 0 ≤ s.1 ∧ 0 ≤ s.2)
    {r : ℝ × ℝ} (hr : ratioOfScores scores = some r) : 0 ≤ r.1 ∧ 0 ≤ r.2 ∧ r.1 + r.2 = 1 := by
  unfold ratioOfScores at hr
  simp only at hr
  split_ifs at hr with h0
  simp only [Option.some.injEq] at hr
  subst hr
  have h1 : 0 ≤ rankedSum (scores.map (·.1)) := rankedSum_nonneg (by
    intro x hx; obtain ⟨s, hs, rfl⟩ := List.mem_map.mp hx; exact (h s hs).1)
  have h2 : 0 ≤ rankedSum (scores.map (·.2)) := rankedSum_nonneg (by
    intro x hx; obtain ⟨s, hs, rfl⟩ := List.mem_map.mp hx; exact (h s hs).2)
  refine ⟨by positivity, by positivity, ?_⟩
  simp only
  rw [← add_div, div_self h0]

theorem fallback_ok (eta : ℕ) :
    0 ≤ (eta : ℝ) / (1 + eta) ∧ 0 ≤ 1 / (1 + (eta : ℝ)) ∧
      (eta : ℝ) / (1 + eta) + 1 / (1 + (eta : ℝ)) = 1 := by
  refine ⟨by positivity, by positivity, ?_⟩
  rw [← add_div, add_comm, div_self (by positivity)]

/-- The rung whose scores count: the highest one, from `r` down to `minR`, with at least `eta`
finished trials. -/
theorem ratioDynamic_cases {eta minR : ℕ} {sort : Argsort} {score : ℕ → ℝ × ℝ}
    {hist : ℕ → List (ℕ × PyFloat)} : ∀ {r : ℕ}, minR ≤ r →
    (∃ q, minR ≤ q ∧ q ≤ r ∧ eta ≤ (hist q).length ∧
      (∀ q', q < q' → q' ≤ r → (hist q').length < eta) ∧
      ratioDynamic eta minR sort score hist r =
        ratioOfScores ((topConfigs eta sort (hist q)).map score)) ∨
    ((∀ q, minR ≤ q → q ≤ r → (hist q).length < eta) ∧
      ratioDynamic eta minR sort score hist r =
        some ((eta : ℝ) / (1 + (eta : ℝ)), 1 / (1 + (eta : ℝ))))
  | 0, hm => by
    have : minR = 0 := by omega
    subst this
    by_cases h : eta ≤ (hist 0).length
    · exact Or.inl ⟨0, le_refl _, le_refl _, h, fun q' h1 h2 => absurd h2 (by omega),
        by simp only [ratioDynamic, if_pos h]⟩
    · refine Or.inr ⟨fun q _ h2 => ?_, by simp only [ratioDynamic, if_neg h, if_true]⟩
      have : q = 0 := by omega
      subst this; omega
  | r + 1, hm => by
    by_cases h : eta ≤ (hist (r + 1)).length
    · exact Or.inl ⟨r + 1, hm, le_refl _, h, fun q' h1 h2 => absurd h2 (by omega),
        by simp only [ratioDynamic, if_pos h]⟩
    · by_cases hr : r + 1 = minR
      · refine Or.inr ⟨fun q h1 h2 => ?_, by simp only [ratioDynamic, if_neg h, if_pos hr]⟩
        have : q = r + 1 := by omega
        subst this; omega
      · rcases ratioDynamic_cases (eta := eta) (sort := sort) (score := score) (hist := hist)
          (show minR ≤ r by omega) with ⟨q, h1, h2, h3, h4, h5⟩ | ⟨h1, h2⟩
        · refine Or.inl ⟨q, h1, by omega, h3, fun q' hq' hle => ?_, ?_⟩
          · by_cases hq : q' = r + 1
            · subst hq; omega
            · exact h4 q' hq' (by omega)
          · simp only [ratioDynamic, if_neg h, if_neg hr, h5]
        · refine Or.inr ⟨fun q h3 h4 => ?_, ?_⟩
          · by_cases hq : q = r + 1
            · subst hq; omega
            · exact h1 q h3 (by omega)
          · simp only [ratioDynamic, if_neg h, if_neg hr, h2]

theorem decay_bounds (resources : ℝ) (eta : ℕ) (maxBudget : ℝ) :
    0 < priorWeightForDecay resources eta maxBudget ∧
      priorWeightForDecay resources eta maxBudget ≤ 1 := by
  unfold priorWeightForDecay
  refine ⟨by positivity, ?_⟩
  rw [div_le_one (by positivity)]
  exact one_le_pow₀ (by norm_num)

theorem ratio_ok {v : View} (hv : v.Sane) {r : ℝ × ℝ} (hr : ratio v = some r) :
    0 ≤ r.1 ∧ 0 ≤ r.2 ∧ r.1 + r.2 = 1 := by
  unfold ratio at hr
  split at hr
  · simp only [Option.some.injEq] at hr
    subst hr
    obtain ⟨h1, h2, h3⟩ := fallback_ok v.self.eta
    simp only [ratioConstant]
    rw [add_comm 1 (v.self.eta : ℝ)] at h1 h2 h3
    exact ⟨h1, h2, h3⟩
  · simp only [Option.some.injEq] at hr
    subst hr
    obtain ⟨h1, h2⟩ := decay_bounds (resourcesUsed v.self v.rungs) v.self.eta v.maxBudget
    simp only [ratioDecay]
    exact ⟨h1.le, by linarith, by ring⟩
  · rcases ratioDynamic_cases (eta := v.self.eta) (sort := v.sort) (score := v.score)
      (hist := v.hist) hv.rungs with ⟨q, _, _, _, _, h5⟩ | ⟨_, h2⟩
    · rw [h5] at hr
      refine ratioOfScores_ok ?_ hr
      intro s hs
      obtain ⟨c, _, rfl⟩ := List.mem_map.mp hs
      exact hv.score c
    · rw [h2] at hr
      simp only [Option.some.injEq] at hr
      subst hr
      exact fallback_ok _
  · simp at hr

theorem rawPrior_pos {w : WeightType} {eta n rung : ℕ} (he : 1 ≤ eta) {p : ℝ}
    (hp : rawPrior w eta n rung = some p) : 1 ≤ p := by
  have hE : (1 : ℝ) ≤ eta := by exact_mod_cast he
  unfold rawPrior at hp
  split at hp
  · simp only [Option.some.injEq] at hp
    subst hp
    exact one_le_pow₀ hE
  · unfold linspaceAt at hp
    split_ifs at hp with h1 h2
    · simp only [Option.some.injEq] at hp
      exact hp.le
    · simp only [Option.some.injEq] at hp
      subst hp
      have : (1 : ℝ) ≤ n := by exact_mod_cast (by omega : 1 ≤ n)
      have h3 : 0 ≤ ((eta : ℝ) - 1) / ((n : ℝ) - 1) := div_nonneg (by linarith) (by linarith)
      nlinarith [mul_nonneg (Nat.cast_nonneg (α := ℝ) rung) h3]
  · simp only [Option.some.injEq] at hp
    exact hp.le
  · simp at hp

theorem calc_iff {v : View} {rung : ℕ} {w : Weights} (h : calcSamplingArgs v rung = some w) :
    ∃ p r, rawPrior v.weightType v.self.eta (numRungs v.self) rung = some p ∧ ratio v = some r ∧
      w = { prior := r.1 * (p / (p + 1)), inc := r.2 * (p / (p + 1)), random := 1 / (p + 1) } := by
  unfold calcSamplingArgs at h
  simp only [Option.bind_eq_bind, Option.bind_eq_some_iff] at h
  obtain ⟨p, hp, r, hr, h⟩ := h
  simp only [Option.pure_def, Option.some.injEq] at h
  exact ⟨p, r, hp, hr, h.symm⟩

theorem sampling_iff {first : Bracket ℝ} {v : View} {rung : ℕ} {w : Weights}
    (h : samplingWeights first v rung = some w) :
    ∃ w₀, calcSamplingArgs v rung = some w₀ ∧
      ((activateInc first v ∧ w = w₀) ∨
        (¬ activateInc first v ∧ w = { w₀ with prior := w₀.prior + w₀.inc, inc := 0 })) := by
  unfold samplingWeights at h
  simp only [Option.bind_eq_bind, Option.bind_eq_some_iff] at h
  obtain ⟨w₀, h₀, h⟩ := h
  split_ifs at h with ha
  · simp only [Option.pure_def, Option.some.injEq] at h
    exact ⟨w₀, h₀, Or.inl ⟨ha, h.symm⟩⟩
  · simp only [Option.pure_def, Option.some.injEq] at h
    exact ⟨w₀, h₀, Or.inr ⟨ha, h.symm⟩⟩

/-! ## C42 -/

/-- **C42**: whatever the trials, the rung and the options, the weights are a probability
distribution. -/
theorem C42_distribution (first : Bracket ℝ) (v : View) (hv : v.Sane) (rung : ℕ) (w : Weights)
    (h : samplingWeights first v rung = some w) : w.Distribution := by
  obtain ⟨w₀, h₀, hw⟩ := sampling_iff h
  obtain ⟨p, r, hp, hr, rfl⟩ := calc_iff h₀
  have hp1 := rawPrior_pos hv.eta hp
  obtain ⟨r1, r2, r3⟩ := ratio_ok hv hr
  have hpp : (0 : ℝ) ≤ p / (p + 1) := by positivity
  have hsum : p / (p + 1) + 1 / (p + 1) = 1 := by
    rw [← add_div, div_self (by positivity)]
  have hr0 : (0 : ℝ) ≤ 1 / (p + 1) := by positivity
  have e : r.1 * (p / (p + 1)) + r.2 * (p / (p + 1)) = p / (p + 1) := by
    rw [← add_mul, r3, one_mul]
  rcases hw with ⟨_, rfl⟩ | ⟨_, rfl⟩
  · exact ⟨mul_nonneg r1 hpp, mul_nonneg r2 hpp, hr0, by simp only; linarith⟩
  · exact ⟨add_nonneg (mul_nonneg r1 hpp) (mul_nonneg r2 hpp), le_refl _, hr0, by
      simp only; linarith⟩

/-- **C42**: as long as incumbent sampling is not active, the incumbent has no weight and the prior
gets all that the random policy leaves. -/
theorem C42_inactive (first : Bracket ℝ) (v : View) (hv : v.Sane) (rung : ℕ) (w : Weights)
    (h : samplingWeights first v rung = some w) (ha : ¬ activateInc first v) :
    w.inc = 0 ∧ w.prior = 1 - w.random := by
  have hd := C42_distribution first v hv rung w h
  obtain ⟨w₀, h₀, hw⟩ := sampling_iff h
  rcases hw with ⟨ha', _⟩ | ⟨_, rfl⟩
  · exact absurd ha' ha
  · have := hd.sum
    simp only at this ⊢
    exact ⟨trivial, by linarith⟩

/-- **C42**: the share of the random policy.  Geometric weights: one in `eta ^ rung + 1`; equal
weights: one half; linear weights: one half at rung 0, one in `eta + 1` at the last of several
rungs. -/
theorem C42_random_share (first : Bracket ℝ) (v : View) (rung : ℕ) (w : Weights)
    (h : samplingWeights first v rung = some w) :
    (v.weightType = .geometric → w.random = 1 / ((v.self.eta : ℝ) ^ rung + 1)) ∧
    (v.weightType = .fiftyFifty → w.random = 1 / 2) ∧
    (v.weightType = .linear → rung = 0 → w.random = 1 / 2) ∧
    (v.weightType = .linear → 2 ≤ numRungs v.self → rung + 1 = numRungs v.self →
      w.random = 1 / ((v.self.eta : ℝ) + 1)) := by
  obtain ⟨w₀, h₀, hw⟩ := sampling_iff h
  obtain ⟨p, r, hp, hr, rfl⟩ := calc_iff h₀
  have hwr : w.random = 1 / (p + 1) := by rcases hw with ⟨_, rfl⟩ | ⟨_, rfl⟩ <;> rfl
  rw [hwr]
  refine ⟨fun ht => ?_, fun ht => ?_, fun ht h0 => ?_, fun ht h2 hn => ?_⟩
  · rw [ht] at hp
    simp only [rawPrior, Option.some.injEq] at hp
    rw [hp]
  · rw [ht] at hp
    simp only [rawPrior, Option.some.injEq] at hp
    rw [← hp]; norm_num
  · rw [ht, h0] at hp
    simp only [rawPrior, linspaceAt] at hp
    split_ifs at hp with h1 h2
    · simp only [Option.some.injEq] at hp
      rw [← hp]; norm_num
    · simp only [Option.some.injEq, Nat.cast_zero, zero_mul, add_zero] at hp
      rw [← hp]; norm_num
  · rw [ht] at hp
    simp only [rawPrior, linspaceAt] at hp
    rw [if_pos (by omega), if_neg (by omega), Option.some.injEq] at hp
    have e : ((numRungs v.self : ℕ) : ℝ) - 1 = (rung : ℝ) := by
      rw [← hn]; push_cast; ring
    have hr0 : (rung : ℝ) ≠ 0 := by
      have : rung ≠ 0 := by omega
      exact_mod_cast this
    rw [e, mul_div_cancel₀ _ hr0] at hp
    rw [← hp]; ring

/-- **C42**: the random policy never gets more weight at a higher rung, whichever rule is used. -/
theorem C42_random_antitone (first first' : Bracket ℝ) (v v' : View) (he : 1 ≤ v.self.eta)
    (hself : v'.self = v.self) (ht : v'.weightType = v.weightType) (rung rung' : ℕ)
    (hle : rung ≤ rung') (w w' : Weights) (h : samplingWeights first v rung = some w)
    (h' : samplingWeights first' v' rung' = some w') : w'.random ≤ w.random := by
  obtain ⟨w₀, h₀, hw⟩ := sampling_iff h
  obtain ⟨p, r, hp, hr, rfl⟩ := calc_iff h₀
  obtain ⟨w₀', h₀', hw'⟩ := sampling_iff h'
  obtain ⟨p', r', hp', hr', rfl⟩ := calc_iff h₀'
  have e1 : w.random = 1 / (p + 1) := by rcases hw with ⟨_, rfl⟩ | ⟨_, rfl⟩ <;> rfl
  have e2 : w'.random = 1 / (p' + 1) := by rcases hw' with ⟨_, rfl⟩ | ⟨_, rfl⟩ <;> rfl
  rw [e1, e2]
  rw [hself, ht] at hp'
  have hp1 := rawPrior_pos he hp
  have hE : (1 : ℝ) ≤ v.self.eta := by exact_mod_cast he
  have key : p ≤ p' := by
    cases hwt : v.weightType with
    | geometric =>
      simp only [rawPrior, hwt, Option.some.injEq] at hp hp'
      rw [← hp, ← hp']
      exact pow_le_pow_right₀ hE hle
    | linear =>
      simp only [rawPrior, hwt, linspaceAt] at hp hp'
      split_ifs at hp hp' with a b c
      · simp only [Option.some.injEq] at hp hp'; rw [← hp, ← hp']
      · simp only [Option.some.injEq] at hp hp'
        rw [← hp, ← hp']
        have h1 : (1 : ℝ) ≤ (numRungs v.self : ℕ) := by
          exact_mod_cast (by omega : 1 ≤ numRungs v.self)
        have h2 : 0 ≤ ((v.self.eta : ℝ) - 1) / ((numRungs v.self : ℕ) - 1) :=
          div_nonneg (by linarith) (by linarith)
        have h3 : (rung : ℝ) ≤ rung' := by exact_mod_cast hle
        nlinarith [mul_le_mul_of_nonneg_right h3 h2]
    | fiftyFifty =>
      simp only [rawPrior, hwt, Option.some.injEq] at hp hp'; rw [← hp, ← hp']
    | other => simp [rawPrior, hwt] at hp
  exact one_div_le_one_div_of_le (by linarith) (by linarith)

/-- **C42, constant style**: once active, the prior has `eta` times the weight of the
incumbent. -/
theorem C42_constant (first : Bracket ℝ) (v : View) (hs : v.incStyle = .constant) (rung : ℕ)
    (w : Weights) (h : samplingWeights first v rung = some w) (ha : activateInc first v) :
    w.prior = (v.self.eta : ℝ) * w.inc := by
  obtain ⟨w₀, h₀, hw⟩ := sampling_iff h
  obtain ⟨p, r, hp, hr, rfl⟩ := calc_iff h₀
  rcases hw with ⟨_, rfl⟩ | ⟨hn, _⟩
  · simp only [ratio, hs, ratioConstant, Option.some.injEq] at hr
    subst hr
    simp only
    ring
  · exact absurd ha hn

/-- **C42, decay style**: of the weight the random policy leaves, the incumbent gets
`1 - (1/2)^k` once it is active, where `k` counts how often the resources of finished evaluations
cover `eta` full evaluations. -/
theorem C42_decay (first : Bracket ℝ) (v : View) (hv : v.Sane) (hs : v.incStyle = .decay) (rung : ℕ)
    (w : Weights) (h : samplingWeights first v rung = some w) (ha : activateInc first v) (k : ℕ)
    (h1 : (k : ℝ) * ((v.self.eta : ℝ) * v.maxBudget) ≤ resourcesUsed v.self v.rungs)
    (h2 : resourcesUsed v.self v.rungs < ((k : ℝ) + 1) * ((v.self.eta : ℝ) * v.maxBudget)) :
    w.prior = (1 / 2) ^ k * (1 - w.random) ∧ w.inc = (1 - (1 / 2) ^ k) * (1 - w.random) := by
  have hd := C42_distribution first v hv rung w h
  obtain ⟨w₀, h₀, hw⟩ := sampling_iff h
  obtain ⟨p, r, hp, hr, rfl⟩ := calc_iff h₀
  rcases hw with ⟨_, rfl⟩ | ⟨hn, _⟩
  · simp only [ratio, hs, Option.some.injEq] at hr
    subst hr
    have hp1 := rawPrior_pos hv.eta hp
    have hpos : 0 < (v.self.eta : ℝ) * v.maxBudget := by
      have : (1 : ℝ) ≤ v.self.eta := by exact_mod_cast hv.eta
      have := hv.maxBudget
      positivity
    have hk : ⌊resourcesUsed v.self v.rungs / ((v.self.eta : ℝ) * v.maxBudget)⌋₊ = k := by
      rw [Nat.floor_eq_iff (div_nonneg (le_trans (by positivity) h1) hpos.le)]
      exact ⟨by rwa [le_div_iff₀ hpos], by rwa [div_lt_iff₀ hpos]⟩
    have hrest : 1 - 1 / (p + 1) = p / (p + 1) := by
      field_simp
      ring
    simp only [hrest, ratioDecay, priorWeightForDecay, hk, one_div_pow]
    exact ⟨trivial, trivial⟩
  · exact absurd ha hn

/-- **C42, dynamic style**: the rung that counts is the highest one with at least `eta` finished
trials.  The prior and the incumbent share the weight that the random policy leaves in proportion
to the scores of the best configurations of that rung, a better rank counting more.  Without such a
rung the prior gets `eta` times the weight of the incumbent. -/
theorem C42_dynamic (first : Bracket ℝ) (v : View) (hv : v.Sane) (hs : v.incStyle = .dynamic)
    (rung : ℕ) (w : Weights) (h : samplingWeights first v rung = some w)
    (ha : activateInc first v) :
    (∃ q, v.self.minR ≤ q ∧ q ≤ v.self.maxR ∧ v.self.eta ≤ (v.hist q).length ∧
      (∀ q', q < q' → q' ≤ v.self.maxR → (v.hist q').length < v.self.eta) ∧
      w.prior * ByRank ((topConfigs v.self.eta v.sort (v.hist q)).map fun c => (v.score c).2) =
        w.inc * ByRank ((topConfigs v.self.eta v.sort (v.hist q)).map fun c => (v.score c).1)) ∨
    ((∀ q, v.self.minR ≤ q → q ≤ v.self.maxR → (v.hist q).length < v.self.eta) ∧
      w.prior = (v.self.eta : ℝ) * w.inc) := by
  obtain ⟨w₀, h₀, hw⟩ := sampling_iff h
  obtain ⟨p, r, hp, hr, rfl⟩ := calc_iff h₀
  rcases hw with ⟨_, rfl⟩ | ⟨hn, _⟩
  · simp only [ratio, hs] at hr
    rcases ratioDynamic_cases (eta := v.self.eta) (sort := v.sort) (score := v.score)
      (hist := v.hist) hv.rungs with ⟨q, a1, a2, a3, a4, a5⟩ | ⟨a1, a2⟩
    · refine Or.inl ⟨q, a1, a2, a3, a4, ?_⟩
      rw [a5] at hr
      unfold ratioOfScores at hr
      simp only [List.map_map, Function.comp_def, rankedSum_byRank] at hr
      split_ifs at hr with h0
      simp only [Option.some.injEq] at hr
      subst hr
      simp only
      ring
    · refine Or.inr ⟨a1, ?_⟩
      rw [a2] at hr
      simp only [Option.some.injEq] at hr
      subst hr
      simp only
      ring
  · exact absurd ha hn

theorem pick_map {A B : Type} (f : A → B) (l : List A) (idx : List ℕ) :
    pick (l.map f) idx = (pick l idx).map f := by
  simp [pick, List.map_filterMap]

theorem pick_range {A : Type} (l : List A) : pick l (List.range l.length) = l := by
  induction l with
  | nil => simp [pick]
  | cons a l ih =>
    have h : pick (a :: l) (List.range (l.length + 1)) = a :: pick l (List.range l.length) := by
      simp [pick, List.range_succ_eq_map, List.filterMap_map]
    rw [List.length_cons, h, ih]

/-- **C42**: the configurations whose scores count are, with a sorting `argsort`, the best ones of
the rung, as many as the larger of `eta` and one in `eta`, best first. -/
theorem C42_top (eta : ℕ) (sort : Argsort) (hsort : Sorts sort)
    (hist : List (ℕ × PyFloat)) (hlen : eta ≤ hist.length) :
    ∃ best rest : List (ℕ × PyFloat), (best ++ rest).Perm hist ∧
      topConfigs eta sort hist = best.map (·.1) ∧
      best.length = max (hist.length / eta) eta ∧
      (best ++ rest).Pairwise (fun a b => sortLe a.2 b.2) := by
  set idx := sort (hist.map (·.2)) with hidx
  have hperm : idx.Perm (List.range hist.length) := by
    simpa using hsort.perm (hist.map (·.2))
  have hlt : ∀ i ∈ idx, i < hist.length := fun i hi => List.mem_range.mp (hperm.mem_iff.mp hi)
  set k := max (hist.length / eta) eta with hk
  have hkl : k ≤ hist.length := max_le (Nat.div_le_self _ _) hlen
  refine ⟨(pick hist idx).take k, (pick hist idx).drop k, ?_, ?_, ?_, ?_⟩
  · rw [List.take_append_drop]
    exact (List.Perm.filterMap _ hperm).trans (List.Perm.of_eq (pick_range hist))
  · unfold topConfigs
    rw [pick_map, pick_take hlt]
  · rw [List.length_take, pick_all hlt, hperm.length_eq, List.length_range]
    omega
  · rw [List.take_append_drop]
    apply pick_pairwise
    refine (hsort.sorted (hist.map (·.2))).imp ?_
    intro i j h a b ha hb
    exact h a.2 b.2 (by simp [ha]) (by simp [hb])

theorem samplingWeights_some (first : Bracket ℝ) {v : View} {rung : ℕ} {p : ℝ} {r : ℝ × ℝ}
    (hp : rawPrior v.weightType v.self.eta (numRungs v.self) rung = some p)
    (hr : ratio v = some r) : ∃ w, samplingWeights first v rung = some w := by
  have hc : ∃ w, calcSamplingArgs v rung = some w := by
    unfold calcSamplingArgs
    rw [hp, hr]
    exact ⟨_, rfl⟩
  obtain ⟨w, hw'⟩ := hc
  unfold samplingWeights
  rw [hw']
  simp only [Option.bind_eq_bind, Option.bind_some]
  split_ifs <;> exact ⟨_, rfl⟩

theorem linspaceAt_some {start stop : ℝ} {num i : ℕ} (h : i < num) :
    ∃ p, linspaceAt start stop num i = some p := by
  unfold linspaceAt
  rw [if_pos h]
  split_ifs <;> exact ⟨_, rfl⟩

/-- **C42**: the weights exist for every history, provided that the options are known ones, that
linear weights are asked for a rung counted from zero, and that every configuration has a positive
score. -/
theorem C42_defined (first : Bracket ℝ) (v : View) (hv : v.Sane) (hsort : Sorts v.sort)
    (rung : ℕ) (hw : v.weightType ≠ .other) (hi : v.incStyle ≠ .other)
    (hl : v.weightType = .linear → rung < numRungs v.self)
    (hs : ∀ c, 0 < (v.score c).1 + (v.score c).2) :
    ∃ w, samplingWeights first v rung = some w := by
  have h1 : ∃ p, rawPrior v.weightType v.self.eta (numRungs v.self) rung = some p := by
    cases hwt : v.weightType with
    | geometric => exact ⟨_, rfl⟩
    | linear => exact linspaceAt_some (hl hwt)
    | fiftyFifty => exact ⟨_, rfl⟩
    | other => exact absurd hwt hw
  have h2 : ∃ r, ratio v = some r := by
    unfold ratio
    cases his : v.incStyle with
    | constant => exact ⟨_, rfl⟩
    | decay => exact ⟨_, rfl⟩
    | other => exact absurd his hi
    | dynamic =>
      simp only
      rcases ratioDynamic_cases (eta := v.self.eta) (sort := v.sort) (score := v.score)
        (hist := v.hist) hv.rungs with ⟨q, _, _, a3, _, a5⟩ | ⟨_, a2⟩
      · rw [a5]
        obtain ⟨best, rest, _, b2, b3, _⟩ := C42_top v.self.eta v.sort hsort (v.hist q) a3
        have hne : topConfigs v.self.eta v.sort (v.hist q) ≠ [] := by
          rw [b2]
          intro h0
          have := hv.eta
          have h0' : best = [] := by simpa using h0
          rw [h0'] at b3
          simp only [List.length_nil] at b3
          omega
        generalize topConfigs v.self.eta v.sort (v.hist q) = cs at hne
        have key : 0 < rankedSum ((cs.map v.score).map (·.1)) +
            rankedSum ((cs.map v.score).map (·.2)) := by
          cases cs with
          | nil => exact absurd rfl hne
          | cons c cs =>
            have n1 : 0 ≤ rankedSum ((cs.map v.score).map (·.1)) := rankedSum_nonneg (by
              simp only [List.map_map, List.mem_map, Function.comp]
              rintro x ⟨c, _, rfl⟩; exact (hv.score c).1)
            have n2 : 0 ≤ rankedSum ((cs.map v.score).map (·.2)) := rankedSum_nonneg (by
              simp only [List.map_map, List.mem_map, Function.comp]
              rintro x ⟨c, _, rfl⟩; exact (hv.score c).2)
            have := hs c
            have hl : (0 : ℝ) ≤ (cs.length : ℝ) := by positivity
            have h3 := hv.score c
            simp only [List.map_cons, rankedSum, List.length_map]
            nlinarith
        exact ⟨_, by unfold ratioOfScores; simp only; rw [if_neg key.ne']⟩
      · exact ⟨_, a2⟩
  obtain ⟨p, hp⟩ := h1
  obtain ⟨r, hr⟩ := h2
  exact samplingWeights_some first hp hr

/-- An optimizer with three rungs and trials at all of them. -/
noncomputable def demoView (wt : WeightType) (is : IncStyle) : View where
  weightType := wt
  incStyle := is
  self := { minR := 0, maxR := 2, eta := 3, cap := fun r => 3 ^ (2 - r), budget := fun r => 3 ^ r }
  maxBudget := 9
  sort := fun xs => List.range xs.length
  score := fun c => if c = 0 then (1, 3) else (2, 1)
  hist := fun r => if r = 2 then [(0, .num 1)] else [(0, .num 1), (1, .num 2), (2, .num 3)]
  rungs := [2, 1, 1, 0, 0, 0, 0, 0, 0]

theorem demoView_sane (wt : WeightType) (is : IncStyle) : (demoView wt is).Sane where
  eta := by simp [demoView]
  rungs := by simp [demoView]
  maxBudget := by norm_num [demoView]
  budget := fun r => by simp only [demoView]; positivity
  score := fun c => by
    simp only [demoView]
    split_ifs <;> norm_num

/-- The weights of this optimizer at the middle rung, before incumbent sampling is active and
after: the hypotheses of the theorems above are met. -/
example : ∃ w, samplingWeights (demoView .geometric .constant).self (demoView .geometric .constant) 1
    = some w := samplingWeights_some _ (p := 3 ^ 1) rfl (r := ratioConstant 3) rfl

example : ∃ w, samplingWeights (demoView .linear .dynamic).self (demoView .linear .dynamic) 1
    = some w := by
  have h1 : ∃ r, ratio (demoView .linear .dynamic) = some r := by
    simp [ratio, demoView, ratioDynamic, topConfigs, pick, List.range_succ, ratioOfScores, rankedSum]
    norm_num
  have h2 : ∃ p, rawPrior .linear 3 3 1 = some p := linspaceAt_some (by norm_num)
  obtain ⟨r, hr⟩ := h1
  obtain ⟨p, hp⟩ := h2
  exact samplingWeights_some _ (p := p) hp hr

example : activateInc { minR := 0, maxR := 0, eta := 3, cap := fun _ => 1, budget := fun _ => 9 }
    (demoView .geometric .dynamic) := by
  refine ⟨?_, by simp [demoView]⟩
  simp [bracketResources, numRungs, resourcesUsed, demoView]
  norm_num

/-- **C42 fails** for linear weights of an optimizer whose rungs do not start at zero (an early
stopping rate above zero): with a single rung every request raises an `IndexError`. -/
theorem C42_linear_fails (first : Bracket ℝ) (v : View) (hw : v.weightType = .linear)
    (h1 : 0 < v.self.minR) (h2 : v.self.maxR = v.self.minR) :
    samplingWeights first v v.self.minR = none := by
  have : ¬ v.self.minR < numRungs v.self := by unfold numRungs; omega
  simp [samplingWeights, calcSamplingArgs, rawPrior, hw, linspaceAt, this]

/-- **C42 fails** at the base rung of such an optimizer also for geometric weights: the prior and
the random policy do not share equally there. -/
theorem C42_base_rung_fails (first : Bracket ℝ) (v : View) (hw : v.weightType = .geometric)
    (he : 2 ≤ v.self.eta) (h1 : 0 < v.self.minR) (w : Weights)
    (h : samplingWeights first v v.self.minR = some w) : w.random < 1 / 2 := by
  rw [(C42_random_share first v _ w h).1 hw]
  have hE : (2 : ℝ) ≤ v.self.eta := by exact_mod_cast he
  have : (v.self.eta : ℝ) ^ 1 ≤ (v.self.eta : ℝ) ^ v.self.minR :=
    pow_le_pow_right₀ (by linarith) (by omega)
  rw [pow_one] at this
  apply one_div_lt_one_div_of_lt <;> linarith

/-- **C42 fails** if all scores are zero, as happens when the densities are too small for a float:
the weights are not numbers and the request raises. -/
theorem C42_zero_scores_fails (first : Bracket ℝ) (v : View) (hs : v.incStyle = .dynamic)
    (hr : v.self.eta ≤ (v.hist v.self.maxR).length) (h0 : ∀ c, v.score c = (0, 0)) (rung : ℕ) :
    samplingWeights first v rung = none := by
  have hz : ∀ l : List ℕ, rankedSum ((l.map v.score).map (·.1)) = 0 ∧
      rankedSum ((l.map v.score).map (·.2)) = 0 := by
    intro l
    induction l with
    | nil => simp [rankedSum]
    | cons c l ih =>
      simp only [List.map_cons, rankedSum, h0, ih.1, ih.2]
      simp
  have : ratio v = none := by
    simp only [ratio, hs]
    have : ∀ r, v.self.eta ≤ (v.hist r).length →
        ratioDynamic v.self.eta v.self.minR v.sort v.score v.hist r = none := by
      intro r hr
      have e : ratioOfScores ((topConfigs v.self.eta v.sort (v.hist r)).map v.score) = none := by
        unfold ratioOfScores
        simp only
        rw [(hz _).1, (hz _).2, if_pos (by norm_num)]
      cases r <;> simp only [ratioDynamic, if_pos hr, e]
    exact this _ hr
  simp [samplingWeights, calcSamplingArgs, this]

end Verif.PriorBand
