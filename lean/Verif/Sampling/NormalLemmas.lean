import Verif.Sampling.NormalModel
import Mathlib.Probability.Distributions.Gaussian.Real
import Mathlib.Analysis.SpecialFunctions.Gaussian.GaussianIntegral
import Mathlib.MeasureTheory.Integral.IntervalIntegral.FundThmCalculus
import Mathlib.MeasureTheory.Integral.IntegralEqImproper
import Mathlib.Topology.Order.IntermediateValue
import Mathlib.Analysis.Complex.ExponentialBounds
import Mathlib.Analysis.Real.Pi.Bounds

/-!
# Lemmas on the error function and the normal distribution
-/

namespace Verif.Sampling

open Real MeasureTheory intervalIntegral Filter Topology

/-! ## The error function -/

theorem gauss_continuous : Continuous fun t : ℝ => exp (-t ^ 2) := by fun_prop

theorem erf_strictMono : StrictMono erf := by
  intro x y hxy
  unfold erf
  have hpos : (0 : ℝ) < 2 / √π := by positivity
  apply mul_lt_mul_of_pos_left _ hpos
  rw [← sub_pos, integral_interval_sub_left (gauss_continuous.intervalIntegrable _ _)
    (gauss_continuous.intervalIntegrable _ _)]
  exact intervalIntegral_pos_of_pos_on (gauss_continuous.intervalIntegrable _ _)
    (fun t _ => exp_pos _) hxy

theorem erf_continuous : Continuous erf := by
  unfold erf
  exact continuous_const.mul (continuous_primitive (fun a b => gauss_continuous.intervalIntegrable a b) 0)

theorem erf_neg (x : ℝ) : erf (-x) = -erf x := by
  unfold erf
  have h := intervalIntegral.integral_comp_neg (f := fun t : ℝ => exp (-t ^ 2)) (a := 0) (b := x)
  simp only [neg_zero, neg_sq] at h
  rw [integral_symm, ← h]
  ring

theorem erf_zero : erf 0 = 0 := by simp [erf]

theorem erf_atTop : Tendsto erf atTop (𝓝 1) := by
  have h1 : IntegrableOn (fun t : ℝ => exp (-t ^ 2)) (Set.Ioi 0) := by
    have := (integrable_exp_neg_mul_sq (b := 1) one_pos).integrableOn (s := Set.Ioi 0)
    simpa using this
  have h2 := intervalIntegral_tendsto_integral_Ioi (0 : ℝ) h1 (tendsto_id (α := ℝ))
  have h3 : ∫ t in Set.Ioi (0 : ℝ), exp (-t ^ 2) = √π / 2 := by
    have := integral_gaussian_Ioi 1
    simpa using this
  rw [h3] at h2
  have h4 := h2.const_mul (2 / √π)
  have h5 : 2 / √π * (√π / 2) = 1 := by
    have : √π ≠ 0 := by positivity
    field_simp
  rw [h5] at h4
  exact h4

theorem erf_atBot : Tendsto erf atBot (𝓝 (-1)) := by
  have h := (erf_atTop.comp tendsto_neg_atBot_atTop).neg
  refine h.congr fun x => ?_
  simp [erf_neg]

theorem erf_lt_one (x : ℝ) : erf x < 1 :=
  (erf_strictMono (lt_add_one x)).trans_le
    (ge_of_tendsto erf_atTop (eventually_atTop.2 ⟨x + 1, fun _ h => erf_strictMono.monotone h⟩))

theorem neg_one_lt_erf (x : ℝ) : -1 < erf x := by
  have := erf_lt_one (-x)
  rw [erf_neg] at this
  linarith

theorem erf_erfinv {y : ℝ} (h1 : -1 < y) (h2 : y < 1) : erf (erfinv y) = y := by
  have hex : ∃ x, erf x = y := by
    obtain ⟨a, ha⟩ := (erf_atBot.eventually_lt_const h1).exists
    obtain ⟨b, hb⟩ := (erf_atTop.eventually_const_lt h2).exists
    obtain ⟨x, hx⟩ := mem_range_of_exists_le_of_exists_ge erf_continuous ⟨a, ha.le⟩ ⟨b, hb.le⟩
    exact ⟨x, hx⟩
  exact Function.invFun_eq hex

/-! ## The distribution function of the normal distribution -/

/-- The distribution function, without clamping. -/
noncomputable def Phi (x : ℝ) : ℝ := 1 / 2 * (1 + erf (x * (1 / √2)))

theorem Phi_strictMono : StrictMono Phi := by
  intro x y h
  unfold Phi
  have : (0 : ℝ) < 1 / √2 := by positivity
  have := erf_strictMono (mul_lt_mul_of_pos_right h this)
  linarith

theorem Phi_pos (x : ℝ) : 0 < Phi x := by
  have := neg_one_lt_erf (x * (1 / √2))
  unfold Phi
  linarith

theorem Phi_lt_one (x : ℝ) : Phi x < 1 := by
  have := erf_lt_one (x * (1 / √2))
  unfold Phi
  linarith

theorem Phi_zero : Phi 0 = 1 / 2 := by simp [Phi, erf_zero]

theorem littlePhi_continuous : Continuous littlePhi := by unfold littlePhi; fun_prop

theorem Phi_sub (x y : ℝ) : Phi y - Phi x = ∫ t in x..y, littlePhi t := by
  have h0 : ∀ x, Phi x = 1 / 2 + ∫ t in (0 : ℝ)..x, littlePhi t := by
    intro x
    have hc : (1 / √2 : ℝ) ≠ 0 := by positivity
    have h := intervalIntegral.integral_comp_mul_right (f := fun t : ℝ => exp (-t ^ 2)) (a := 0)
      (b := x) hc
    rw [zero_mul] at h
    have h2 : ∀ t : ℝ, littlePhi t = 1 / √(2 * π) * exp (-(t * (1 / √2)) ^ 2) := by
      intro t
      unfold littlePhi
      rw [mul_comm]
      congr 2
      rw [mul_pow, div_pow, Real.sq_sqrt (by norm_num)]
      ring
    simp only [h2]
    rw [intervalIntegral.integral_const_mul, h]
    unfold Phi erf
    rw [Real.sqrt_mul (by norm_num)]
    have h3 : √π ≠ 0 := by positivity
    have h4 : √(2 : ℝ) ≠ 0 := by positivity
    simp only [smul_eq_mul]
    field_simp
  rw [h0 y, h0 x, add_sub_add_left_eq_sub]
  exact integral_interval_sub_left (littlePhi_continuous.intervalIntegrable _ _)
    (littlePhi_continuous.intervalIntegrable _ _)

theorem Phi_invBigPhi {y : ℝ} (h0 : 0 < y) (h1 : y < 1) : Phi (invBigPhi y) = y := by
  unfold Phi invBigPhi
  have h2 : √2 * erfinv (2 * y - 1) * (1 / √2) = erfinv (2 * y - 1) := by
    have : √(2 : ℝ) ≠ 0 := by positivity
    field_simp
  rw [h2, erf_erfinv (by linarith) (by linarith)]
  ring

theorem littlePhi_one : 1 / 5 < littlePhi 1 := by
  unfold littlePhi
  have h1 : (3 / 5 : ℝ) < exp (-(1 ^ 2) * (1 / 2)) := by
    have he := Real.exp_one_lt_d9
    have h2 : exp (-(1 ^ 2) * (1 / 2)) ^ 2 = (exp 1)⁻¹ := by
      rw [← Real.exp_nat_mul, ← Real.exp_neg]
      norm_num
    have h3 : (3 / 5 : ℝ) ^ 2 < exp (-(1 ^ 2) * (1 / 2)) ^ 2 := by
      rw [h2, lt_inv_comm₀ (by norm_num) (exp_pos _)]
      norm_num at he ⊢
      linarith
    exact lt_of_pow_lt_pow_left₀ 2 (exp_pos _).le h3
  have h2 : (1 / 3 : ℝ) < 1 / √(2 * π) := by
    apply one_div_lt_one_div_of_lt (by positivity)
    rw [Real.sqrt_lt' (by norm_num)]
    have := Real.pi_lt_d2
    linarith
  have := mul_lt_mul'' h1 h2 (by norm_num) (by norm_num)
  linarith

theorem littlePhi_pos (x : ℝ) : 0 < littlePhi x := by unfold littlePhi; positivity

theorem littlePhi_ge {x : ℝ} (h : |x| ≤ 1) : littlePhi 1 ≤ littlePhi x := by
  unfold littlePhi
  have : x ^ 2 ≤ 1 := by rw [← sq_abs]; exact pow_le_one₀ (abs_nonneg _) h
  apply mul_le_mul_of_nonneg_right _ (by positivity)
  apply exp_le_exp.2
  linarith

/-- Between bounds around the mean that are at least one standard deviation apart there is at least a
fifth of the mass. -/
theorem Phi_mass {a b : ℝ} (ha : a ≤ 0) (hb : 0 ≤ b) (hab : 1 ≤ b - a) : 1 / 5 ≤ Phi b - Phi a := by
  obtain ⟨c, h1, h2, h3, h4⟩ : ∃ c, a ≤ c ∧ c + 1 ≤ b ∧ -1 ≤ c ∧ c ≤ 0 := by
    rcases le_total (-1) a with h | h
    · exact ⟨a, le_rfl, by linarith, h, ha⟩
    · exact ⟨-1, h, by linarith, le_rfl, by norm_num⟩
  have h5 : 1 / 5 ≤ Phi (c + 1) - Phi c := by
    rw [Phi_sub]
    have h := integral_mono_on (μ := volume) (a := c) (b := c + 1) (f := fun _ => littlePhi 1) (g := littlePhi)
      (by linarith) (by simp) (littlePhi_continuous.intervalIntegrable _ _)
      (fun x hx => littlePhi_ge (abs_le.2 ⟨by linarith [hx.1], by linarith [hx.2]⟩))
    simp only [intervalIntegral.integral_const, add_sub_cancel_left, smul_eq_mul, one_mul] at h
    linarith [littlePhi_one]
  have h6 := Phi_strictMono.monotone h1
  have h7 := Phi_strictMono.monotone h2
  linarith

end Verif.Sampling
