import Verif.Sampling.NormalLemmas
import Verif.Sampling.NormalSpec
import Verif.Sampling.PriorProps

/-!
# The prior of a numerical parameter is a truncated normal distribution (C125)
-/

namespace Verif.Sampling

open Real MeasureTheory ProbabilityTheory Set

namespace TruncNormal

variable {d : TruncNormal}

theorem var_ne (h : 0 < d.scale) : Real.toNNReal (d.scale ^ 2) ≠ 0 := by
  have : 0 < Real.toNNReal (d.scale ^ 2) := Real.toNNReal_pos.2 (by positivity)
  exact this.ne'

theorem pdf_eq (h : 0 < d.scale) (x : ℝ) :
    gaussianPDFReal d.loc (Real.toNNReal (d.scale ^ 2)) x = littlePhi (d.toStd x) / d.scale := by
  unfold gaussianPDFReal littlePhi toStd
  rw [Real.coe_toNNReal _ (by positivity), Real.sqrt_mul (by positivity), Real.sqrt_sq h.le,
    div_pow]
  have h1 : √(2 * π) ≠ 0 := by positivity
  have h2 : -(x - d.loc) ^ 2 / (2 * d.scale ^ 2) = -((x - d.loc) ^ 2 / d.scale ^ 2) * (1 / 2) := by
    field_simp
  rw [h2]
  field_simp

theorem normal_Icc (h : 0 < d.scale) {x y : ℝ} (hxy : x ≤ y) :
    d.normal.real (Icc x y) = Phi (d.toStd y) - Phi (d.toStd x) := by
  have h1 : ∫ t in Icc x y, gaussianPDFReal d.loc (Real.toNNReal (d.scale ^ 2)) t =
      Phi (d.toStd y) - Phi (d.toStd x) := by
    rw [integral_Icc_eq_integral_Ioc, ← intervalIntegral.integral_of_le hxy]
    simp only [pdf_eq h]
    rw [intervalIntegral.integral_div, Phi_sub]
    have h2 := intervalIntegral.integral_comp_div_sub (f := littlePhi) (a := x) (b := y) h.ne'
      (d.loc / d.scale)
    have h3 : ∀ t, t / d.scale - d.loc / d.scale = d.toStd t := fun t => (sub_div _ _ _).symm
    simp only [h3] at h2
    rw [h2, smul_eq_mul, mul_comm, mul_div_assoc, div_self h.ne', mul_one]
  have h3 : 0 ≤ Phi (d.toStd y) - Phi (d.toStd x) := by
    rw [sub_nonneg]
    apply Phi_strictMono.monotone
    unfold toStd
    gcongr
  unfold normal
  rw [Measure.real, gaussianReal_apply_eq_integral _ (var_ne h), h1, ENNReal.toReal_ofReal h3]

theorem toStd_le (h : 0 < d.scale) {x y : ℝ} : d.toStd x ≤ d.toStd y ↔ x ≤ y := by
  unfold toStd
  rw [div_le_div_iff_of_pos_right h]
  constructor <;> intro h' <;> linarith

/-- The numbers of the computation. -/
structure Numbers (d : TruncNormal) (p q : ℝ) : Prop where
  p_pos : 0 < p
  q_lt : q < 1
  p_le : p ≤ 1 / 2
  q_ge : 1 / 2 ≤ q
  mass : 1 / 5 ≤ q - p
  phi_lower : bigPhi (d.toStd d.lower) = max p eps
  phi_upper : bigPhi (d.toStd d.upper) = min q (1 - eps)
  z_eq : d.z = min q (1 - eps) - max p eps
  z_ge : q - p - 2 * eps ≤ d.z
  z_le : d.z ≤ q - p

theorem eps_val : eps = 1 / 1000000 := rfl

theorem numbers (h : Central d) : Numbers d (Phi (d.toStd d.lower)) (Phi (d.toStd d.upper)) := by
  have hs := h.scale
  have ha : d.toStd d.lower ≤ 0 := div_nonpos_of_nonpos_of_nonneg (by linarith [h.lower]) hs.le
  have hb : 0 ≤ d.toStd d.upper := div_nonneg (by linarith [h.upper]) hs.le
  have hab : 1 ≤ d.toStd d.upper - d.toStd d.lower := by
    unfold toStd
    rw [← sub_div, le_div_iff₀ hs]
    linarith [h.apart]
  have hm := Phi_mass ha hb hab
  have hp := Phi_strictMono.monotone ha
  have hq := Phi_strictMono.monotone hb
  rw [Phi_zero] at hp hq
  have he := eps_val
  have e1 : bigPhi (d.toStd d.lower) = max (Phi (d.toStd d.lower)) eps := by
    unfold bigPhi clamp
    exact min_eq_left (max_le (by unfold Phi at hp; linarith) (by linarith))
  have e2 : bigPhi (d.toStd d.upper) = min (Phi (d.toStd d.upper)) (1 - eps) := by
    unfold bigPhi clamp
    rw [max_eq_left (by unfold Phi at hq; linarith)]
    rfl
  have hp0 := Phi_pos (d.toStd d.lower)
  have hq1 := Phi_lt_one (d.toStd d.upper)
  generalize Phi (d.toStd d.lower) = p at *
  generalize Phi (d.toStd d.upper) = q at *
  have m1 : p ≤ max p eps := le_max_left _ _
  have m2 : eps ≤ max p eps := le_max_right _ _
  have m3 : max p eps ≤ p + eps := max_le (by linarith) (by linarith)
  have m4 : min q (1 - eps) ≤ q := min_le_left _ _
  have m5 : min q (1 - eps) ≤ 1 - eps := min_le_right _ _
  have m6 : q - eps ≤ min q (1 - eps) := le_min (by linarith) (by linarith)
  have ez : d.z = min q (1 - eps) - max p eps := by
    unfold z clamp
    rw [e1, e2, max_eq_left (by linarith), min_eq_left (by linarith)]
  exact ⟨hp0, hq1, hp, hq, hm, e1, e2, ez, by linarith, by linarith⟩

/-- **C125, density.** Within the bounds the exponential of `log_prob` is the density of the truncated
normal distribution, up to a constant factor between 1 and 1.00002 (the same for all values). -/
theorem C125_log_prob (h : Central d) :
    ∃ c, 1 ≤ c ∧ c ≤ 1 + 2 / 100000 ∧ ∀ x, exp (d.logProb x) = c * d.density x := by
  have N := numbers h
  have hle : d.lower ≤ d.upper := h.lower.trans h.upper
  have he := eps_val
  have hs := h.scale
  have hz : 0 < d.z := by linarith [N.z_ge, N.mass]
  refine ⟨(Phi (d.toStd d.upper) - Phi (d.toStd d.lower)) / d.z, ?_, ?_, ?_⟩
  · rw [le_div_iff₀ hz]
    linarith [N.z_le]
  · rw [div_le_iff₀ hz]
    linarith [N.z_ge, N.mass]
  · intro x
    have hm : 0 < Phi (d.toStd d.upper) - Phi (d.toStd d.lower) := by linarith [N.mass]
    unfold density
    rw [pdf_eq hs, normal_Icc hs hle]
    unfold logProb littlePhi
    rw [Real.exp_sub, Real.exp_sub, Real.exp_sub, Real.exp_log (by positivity), Real.exp_log hz,
      Real.exp_log hs]
    have : -(d.toStd x ^ 2) * (1 / 2) = -(d.toStd x ^ 2 * (1 / 2)) := by ring
    rw [this, Real.exp_neg]
    have := (exp_pos (d.toStd x ^ 2 * (1 / 2))).ne'
    field_simp

/-- What `density` is: the probability of an interval within the bounds is its integral. -/
theorem C125_density (h : Central d) {x y : ℝ} (hx : d.lower ≤ x) (hxy : x ≤ y) (hy : y ≤ d.upper) :
    d.truth.real (Icc x y) = ∫ t in x..y, d.density t := by
  have hs := h.scale
  unfold truth density
  rw [intervalIntegral.integral_div]
  simp only [pdf_eq hs]
  rw [Measure.real, cond_apply measurableSet_Icc, inter_eq_right.2 (Icc_subset_Icc hx hy),
    ENNReal.toReal_mul, ENNReal.toReal_inv]
  change (d.normal.real _)⁻¹ * d.normal.real _ = _
  rw [inv_mul_eq_div]
  congr 1
  unfold normal
  rw [Measure.real, gaussianReal_apply_eq_integral _ (var_ne hs), integral_Icc_eq_integral_Ioc,
    ← intervalIntegral.integral_of_le hxy]
  simp only [pdf_eq hs]
  rw [ENNReal.toReal_ofReal]
  exact intervalIntegral.integral_nonneg hxy fun t _ => div_nonneg (littlePhi_pos _).le hs.le

theorem truth_Iic (h : Central d) {x : ℝ} (hx : d.lower ≤ x) (hy : x ≤ d.upper) :
    d.truth.real (Iic x) = (Phi (d.toStd x) - Phi (d.toStd d.lower)) /
      (Phi (d.toStd d.upper) - Phi (d.toStd d.lower)) := by
  have hs := h.scale
  unfold truth
  rw [Measure.real, cond_apply measurableSet_Icc]
  have : Icc d.lower d.upper ∩ Iic x = Icc d.lower x := by
    ext t
    simp only [mem_inter_iff, mem_Icc, mem_Iic]
    constructor
    · rintro ⟨⟨h1, h2⟩, h3⟩
      exact ⟨h1, h3⟩
    · rintro ⟨h1, h3⟩
      exact ⟨⟨h1, h3.trans hy⟩, h3⟩
  rw [this, ENNReal.toReal_mul, ENNReal.toReal_inv]
  change (d.normal.real _)⁻¹ * d.normal.real _ = _
  rw [normal_Icc hs hx, normal_Icc hs (hx.trans hy), inv_mul_eq_div]

/-- **C125, range.** Every sample lies within the bounds. -/
theorem C125_range (h : d.lower ≤ d.upper) (p : ℝ) : d.lower ≤ d.icdf p ∧ d.icdf p ≤ d.upper :=
  ⟨le_min (le_max_right _ _) h, min_le_right _ _⟩

/-- Where `icdf` stays below a value. -/
theorem icdf_le (h : Central d) {p x : ℝ} (h0 : 0 ≤ p) (h1 : p ≤ 1) (hx : d.lower ≤ x)
    (hy : x < d.upper) :
    d.icdf p ≤ x ↔ p ≤ (Phi (d.toStd x) - bigPhi (d.toStd d.lower)) / d.z := by
  have N := numbers h
  have he := eps_val
  have hs := h.scale
  have hz : 0 < d.z := by linarith [N.z_ge, N.mass]
  have m2 : eps ≤ max (Phi (d.toStd d.lower)) eps := le_max_right _ _
  have m5 : min (Phi (d.toStd d.upper)) (1 - eps) ≤ 1 - eps := min_le_right _ _
  have hpz : 0 ≤ p * d.z := mul_nonneg h0 hz.le
  have hpz' : p * d.z ≤ d.z := mul_le_of_le_one_left hz.le h1
  have hc : clamp eps (1 - eps) (bigPhi (d.toStd d.lower) + p * d.z) =
      bigPhi (d.toStd d.lower) + p * d.z := by
    unfold clamp
    rw [N.phi_lower, max_eq_left (by linarith), min_eq_left (by linarith [N.z_eq])]
  have hi : d.stdIcdf p ≤ d.toStd x ↔ bigPhi (d.toStd d.lower) + p * d.z ≤ Phi (d.toStd x) := by
    unfold stdIcdf
    rw [hc, ← Phi_strictMono.le_iff_le, Phi_invBigPhi]
    · rw [N.phi_lower]; linarith
    · rw [N.phi_lower]; linarith [N.z_eq]
  rw [le_div_iff₀ hz, le_sub_iff_add_le, add_comm, ← hi]
  unfold icdf
  rw [min_le_iff, max_le_iff]
  have hf : d.fromStd (d.stdIcdf p) ≤ x ↔ d.stdIcdf p ≤ d.toStd x := by
    unfold fromStd toStd
    rw [le_div_iff₀ hs]
    constructor <;> intro h' <;> linarith
  rw [hf]
  constructor
  · rintro (h' | h')
    · exact h'.1
    · exact absurd hy (not_lt.2 h')
  · exact fun h' => Or.inl ⟨h', hx⟩

/-- The computed and the true distribution function differ little. -/
theorem close (h : Central d) {x : ℝ} (hx : d.lower ≤ x) (hy : x ≤ d.upper) :
    |(Phi (d.toStd x) - bigPhi (d.toStd d.lower)) / d.z - d.truth.real (Iic x)| ≤ 12 / 1000000 := by
  have N := numbers h
  have he := eps_val
  have hs := h.scale
  have hz : 0 < d.z := by linarith [N.z_ge, N.mass]
  rw [truth_Iic h hx hy, N.phi_lower]
  have hu1 := Phi_strictMono.monotone ((toStd_le hs).2 hx)
  have hu2 := Phi_strictMono.monotone ((toStd_le hs).2 hy)
  have m1 : Phi (d.toStd d.lower) ≤ max (Phi (d.toStd d.lower)) eps := le_max_left _ _
  have m3 : max (Phi (d.toStd d.lower)) eps ≤ Phi (d.toStd d.lower) + eps :=
    max_le (by linarith) (by linarith [N.p_pos])
  have hM := N.mass
  have z1 := N.z_ge
  have z2 := N.z_le
  generalize max (Phi (d.toStd d.lower)) eps = p' at *
  generalize Phi (d.toStd d.lower) = p at *
  generalize Phi (d.toStd d.upper) = q at *
  generalize Phi (d.toStd x) = u at *
  have hm : 0 < q - p := by linarith
  rw [div_sub_div _ _ hz.ne' hm.ne', abs_div, abs_of_pos (mul_pos hz hm), div_le_iff₀ (mul_pos hz hm),
    abs_le]
  have k1 : 0 ≤ (u - p) * (q - p - d.z) := mul_nonneg (by linarith) (by linarith)
  have k2 : (u - p) * (q - p - d.z) ≤ (q - p) * (2 * eps) :=
    mul_le_mul (by linarith) (by linarith) (by linarith) (by linarith)
  have k3 : 0 ≤ (p' - p) * (q - p) := mul_nonneg (by linarith) hm.le
  have k4 : (p' - p) * (q - p) ≤ eps * (q - p) := mul_le_mul_of_nonneg_right (by linarith) hm.le
  have k5 : (1 / 5 - 2 * eps) * (q - p) ≤ d.z * (q - p) := mul_le_mul_of_nonneg_right (by linarith) hm.le
  have k6 : (u - p') * (q - p) - d.z * (u - p) = (u - p) * (q - p - d.z) - (p' - p) * (q - p) := by ring
  rw [k6, he] at *
  constructor <;> linarith

theorem clamp_close {t F r : ℝ} (h : |t - F| ≤ r) (h0 : 0 ≤ F) (h1 : F ≤ 1) : |clamp 0 1 t - F| ≤ r := by
  unfold clamp
  rw [abs_le] at h ⊢
  rcases le_total t 0 with h2 | h2
  · rw [max_eq_right h2, min_eq_left zero_le_one]
    constructor <;> linarith
  · rw [max_eq_left h2]
    rcases le_total t 1 with h3 | h3
    · rw [min_eq_left h3]
      exact h
    · rw [min_eq_right h3]
      constructor <;> linarith

theorem truth_prob (h : Central d) : IsProbabilityMeasure d.truth := by
  unfold truth
  have hN := numbers h
  have : IsFiniteMeasure d.normal := by unfold normal; infer_instance
  apply cond_isProbabilityMeasure
  intro h0
  have h1 := normal_Icc h.scale (h.lower.trans h.upper)
  rw [Measure.real, h0] at h1
  simp only [ENNReal.toReal_zero] at h1
  linarith [hN.mass]

/-- **C125, distribution function.** Within the bounds `cdf` differs from the distribution function of
the truncated normal distribution by at most 0.00002. -/
theorem C125_cdf (h : Central d) {x : ℝ} (hx : d.lower ≤ x) (hy : x ≤ d.upper) :
    |d.cdf x - d.truth.real (Iic x)| ≤ 2 / 100000 := by
  have := truth_prob h
  have N := numbers h
  have he := eps_val
  have hz : 0 < d.z := by linarith [N.z_ge, N.mass]
  unfold cdf
  refine clamp_close ?_ measureReal_nonneg measureReal_le_one
  have hc := close h hx hy
  have hd : |bigPhi (d.toStd x) - Phi (d.toStd x)| ≤ eps := by
    change |clamp eps (1 - eps) (Phi (d.toStd x)) - Phi (d.toStd x)| ≤ eps
    have h0 := Phi_pos (d.toStd x)
    have h1 := Phi_lt_one (d.toStd x)
    unfold clamp
    rw [abs_le]
    rcases le_total (Phi (d.toStd x)) eps with h2 | h2
    · rw [max_eq_right h2, min_eq_left (by linarith)]
      constructor <;> linarith
    · rw [max_eq_left h2]
      rcases le_total (Phi (d.toStd x)) (1 - eps) with h3 | h3
      · rw [min_eq_left h3]
        constructor <;> linarith
      · rw [min_eq_right h3]
        constructor <;> linarith
  have hd' : |(bigPhi (d.toStd x) - Phi (d.toStd x)) / d.z| ≤ 6 / 1000000 := by
    rw [abs_div, abs_of_pos hz, div_le_iff₀ hz]
    linarith [N.z_ge, N.mass]
  have e : (bigPhi (d.toStd x) - bigPhi (d.toStd d.lower)) / d.z - d.truth.real (Iic x) =
      (bigPhi (d.toStd x) - Phi (d.toStd x)) / d.z +
        ((Phi (d.toStd x) - bigPhi (d.toStd d.lower)) / d.z - d.truth.real (Iic x)) := by ring
  rw [e]
  refine (abs_add_le _ _).trans ?_
  linarith

theorem prob_eq (d : TruncNormal) (x : ℝ) :
    d.probSample x = volume.real (Icc eps (1 - eps) ∩ {p | d.icdf p ≤ x}) / (1 - 2 * eps) := by
  have he := eps_val
  unfold probSample
  rw [Measure.real, cond_apply measurableSet_Icc, ENNReal.toReal_mul, ENNReal.toReal_inv,
    Real.volume_Icc, ENNReal.toReal_ofReal (by linarith), inv_mul_eq_div]
  congr 1
  ring

/-- **C125, samples.** For every number `x`, the probability that a sample is at most `x` differs from
that of the truncated normal distribution by at most 0.00002. -/
theorem C125_samples (h : Central d) (x : ℝ) :
    |d.probSample x - d.truth.real (Iic x)| ≤ 2 / 100000 := by
  have := truth_prob h
  have he := eps_val
  have hle : d.lower ≤ d.upper := h.lower.trans h.upper
  rw [prob_eq]
  rcases lt_or_ge x d.lower with hx | hx
  · have h1 : Icc eps (1 - eps) ∩ {p | d.icdf p ≤ x} = ∅ := by
      ext p
      simp only [mem_inter_iff, mem_ofPred_eq, mem_empty_iff_false, iff_false, not_and, not_le]
      exact fun _ => hx.trans_le (C125_range hle p).1
    have h2 : d.truth.real (Iic x) = 0 := by
      unfold truth
      rw [Measure.real, cond_apply measurableSet_Icc]
      have : Icc d.lower d.upper ∩ Iic x = ∅ := by
        ext t
        simp only [mem_inter_iff, mem_Icc, mem_Iic, mem_empty_iff_false, iff_false, not_and, not_le]
        exact fun h => hx.trans_le h.1
      rw [this]
      simp
    rw [h1, h2]
    simp only [measureReal_empty, zero_div, sub_zero, abs_zero]
    norm_num
  rcases le_or_gt d.upper x with hy | hy
  · have h1 : Icc eps (1 - eps) ∩ {p | d.icdf p ≤ x} = Icc eps (1 - eps) := by
      apply inter_eq_left.2
      exact fun p _ => (C125_range hle p).2.trans hy
    have h2 : d.truth.real (Iic x) = 1 := by
      have h3 := truth_Iic h hle le_rfl
      rw [div_self (by linarith [(numbers h).mass])] at h3
      have h4 := measureReal_mono (μ := d.truth) (Iic_subset_Iic.2 hy)
      have h5 : d.truth.real (Iic x) ≤ 1 := measureReal_le_one
      linarith
    rw [h1, h2, Measure.real, Real.volume_Icc, ENNReal.toReal_ofReal (by linarith)]
    have h3 : (1 - eps - eps) / (1 - 2 * eps) = 1 := by
      rw [div_eq_one_iff_eq (by linarith)]
      ring
    rw [h3]
    norm_num
  · have hc := close h hx hy.le
    set t := (Phi (d.toStd x) - bigPhi (d.toStd d.lower)) / d.z with ht
    have h1 : Icc eps (1 - eps) ∩ {p | d.icdf p ≤ x} = Icc eps (min t (1 - eps)) := by
      ext p
      simp only [mem_inter_iff, mem_ofPred_eq, mem_Icc, le_min_iff]
      constructor
      · rintro ⟨⟨h1, h2⟩, h3⟩
        exact ⟨h1, (icdf_le h (by linarith) (by linarith) hx hy).1 h3, h2⟩
      · rintro ⟨h1, h2, h3⟩
        exact ⟨⟨h1, h3⟩, (icdf_le h (by linarith) (by linarith) hx hy).2 h2⟩
    have h2 : volume.real (Icc eps (min t (1 - eps))) / (1 - 2 * eps) =
        clamp 0 1 ((t - eps) / (1 - 2 * eps)) := by
      have hpos : 0 < 1 - 2 * eps := by linarith
      rw [Measure.real, Real.volume_Icc, div_eq_iff hpos.ne']
      unfold clamp
      rcases le_total t eps with h3 | h3
      · rw [ENNReal.ofReal_of_nonpos (by linarith [min_le_left t (1 - eps)]),
          max_eq_right (div_nonpos_of_nonpos_of_nonneg (by linarith) hpos.le), min_eq_left zero_le_one]
        simp
      · rw [max_eq_left (div_nonneg (by linarith) hpos.le)]
        rcases le_total t (1 - eps) with h4 | h4
        · rw [min_eq_left h4, ENNReal.toReal_ofReal (by linarith),
            min_eq_left (by rw [div_le_one hpos]; linarith), div_mul_cancel₀ _ hpos.ne']
        · rw [min_eq_right h4, ENNReal.toReal_ofReal (by linarith),
            min_eq_right (by rw [le_div_iff₀ hpos]; linarith)]
          ring
    rw [h1, h2]
    have hF0 : 0 ≤ d.truth.real (Iic x) := measureReal_nonneg
    have hF1 : d.truth.real (Iic x) ≤ 1 := measureReal_le_one
    refine clamp_close ?_ hF0 hF1
    rw [abs_le] at hc ⊢
    have hpos : 0 < 1 - 2 * eps := by linarith
    rw [sub_le_iff_le_add, div_le_iff₀ hpos, le_sub_iff_add_le, le_div_iff₀ hpos]
    rw [he]
    constructor <;> linarith

theorem integral_mul_littlePhi (a b : ℝ) : ∫ t in a..b, t * littlePhi t = -(littlePhi b - littlePhi a) := by
  have hd : ∀ t, HasDerivAt (fun t => -littlePhi t) (t * littlePhi t) t := by
    intro t
    unfold littlePhi
    have h1 : HasDerivAt (fun t : ℝ => -(t ^ 2) * (1 / 2)) (-t) t := by
      have := ((hasDerivAt_pow 2 t).fun_neg).mul_const (1 / 2 : ℝ)
      refine this.congr_deriv ?_
      simp only [Nat.add_one_sub_one, pow_one, Nat.cast_ofNat]
      ring
    have h2 := ((h1.exp).mul_const (1 / √(2 * π))).fun_neg
    refine h2.congr_deriv ?_
    ring
  rw [intervalIntegral.integral_eq_sub_of_hasDerivAt (fun t _ => hd t)
    ((continuous_id.mul littlePhi_continuous).intervalIntegrable _ _)]
  ring

theorem truth_mean (h : Central d) : ∫ x, x ∂d.truth = d.loc - d.scale *
    (littlePhi (d.toStd d.upper) - littlePhi (d.toStd d.lower)) /
      (Phi (d.toStd d.upper) - Phi (d.toStd d.lower)) := by
  have hs := h.scale
  have hle : d.lower ≤ d.upper := h.lower.trans h.upper
  have hm : 0 < Phi (d.toStd d.upper) - Phi (d.toStd d.lower) := by linarith [(numbers h).mass]
  have hn := normal_Icc hs hle
  unfold truth ProbabilityTheory.cond
  rw [integral_smul_measure, ENNReal.toReal_inv]
  change (d.normal.real (Icc d.lower d.upper))⁻¹ • _ = _
  rw [hn]
  unfold normal
  rw [gaussianReal_of_var_ne_zero _ (var_ne hs),
    setIntegral_withDensity_eq_setIntegral_toReal_smul (measurable_gaussianPDF _ _)
      (Filter.Eventually.of_forall fun _ => gaussianPDF_lt_top) _ measurableSet_Icc]
  simp only [toReal_gaussianPDF, pdf_eq hs, smul_eq_mul]
  rw [integral_Icc_eq_integral_Ioc, ← intervalIntegral.integral_of_le hle]
  have h2 := intervalIntegral.integral_comp_div_sub (f := fun t => littlePhi t * (t + d.loc / d.scale))
    (a := d.lower) (b := d.upper) hs.ne' (d.loc / d.scale)
  have h3 : ∀ t, t / d.scale - d.loc / d.scale = d.toStd t := fun t => (sub_div _ _ _).symm
  simp only [h3] at h2
  have h4 : ∀ x, littlePhi (d.toStd x) / d.scale * x =
      littlePhi (d.toStd x) * (d.toStd x + d.loc / d.scale) := by
    intro x
    unfold toStd
    field_simp
    ring
  simp only [h4]
  rw [h2]
  have h5 : ∫ t in d.toStd d.lower..d.toStd d.upper, littlePhi t * (t + d.loc / d.scale) =
      -(littlePhi (d.toStd d.upper) - littlePhi (d.toStd d.lower)) +
        (Phi (d.toStd d.upper) - Phi (d.toStd d.lower)) * (d.loc / d.scale) := by
    rw [← integral_mul_littlePhi, Phi_sub, ← intervalIntegral.integral_mul_const,
      ← intervalIntegral.integral_add]
    · congr 1
      ext t
      ring
    · exact (continuous_id.mul littlePhi_continuous).intervalIntegrable _ _
    · exact (littlePhi_continuous.mul continuous_const).intervalIntegrable _ _
  rw [h5, smul_eq_mul]
  field_simp
  ring

/-- **C125, mean.** The distance of `mean` from the default is that of the mean of the truncated normal
distribution, up to the factor of `C125_log_prob`. -/
theorem C125_mean (h : Central d) : ∃ c, 1 ≤ c ∧ c ≤ 1 + 2 / 100000 ∧
    d.mean - d.loc = c * (∫ x, x ∂d.truth - d.loc) := by
  have N := numbers h
  have he := eps_val
  have hz : 0 < d.z := by linarith [N.z_ge, N.mass]
  have hm : 0 < Phi (d.toStd d.upper) - Phi (d.toStd d.lower) := by linarith [N.mass]
  refine ⟨(Phi (d.toStd d.upper) - Phi (d.toStd d.lower)) / d.z, ?_, ?_, ?_⟩
  · rw [le_div_iff₀ hz]
    linarith [N.z_le]
  · rw [div_le_iff₀ hz]
    linarith [N.z_ge, N.mass]
  · rw [truth_mean h]
    unfold mean
    field_simp
    ring

/-- **C125, monotone.** A larger number gives a sample that is not smaller; so samples are ordered like
the uniform numbers they are made of. -/
theorem C125_monotone (h : Central d) {p p' : ℝ} (h0 : 0 ≤ p) (hp : p ≤ p') (h1 : p' ≤ 1) :
    d.icdf p ≤ d.icdf p' := by
  have hle : d.lower ≤ d.upper := h.lower.trans h.upper
  rcases lt_or_eq_of_le (C125_range hle p').2 with hlt | heq
  · have := (icdf_le h (h0.trans hp) h1 (C125_range hle p').1 hlt).1 le_rfl
    exact (icdf_le h h0 (hp.trans h1) (C125_range hle p').1 hlt).2 (hp.trans this)
  · rw [heq]
    exact (C125_range hle p).2

end TruncNormal

/-- **C125.** For every float or integer domain, every value of it as default and every confidence, the
distribution of the prior is a truncated normal distribution on the unit interval: the mean of the normal
distribution is the position of the default, its standard deviation is one minus the confidence. What
`C125_log_prob`, `C125_samples` and the other theorems need is met, and what is drawn (C74, C75) is
`icdf` of the number between 0 and 1 that `rsample` draws. -/
theorem C125_prior (dom : Verif.Space.Domain) (hd : Verif.Space.Declared dom)
    (hc : dom.isCategorical = false) (center : ℝ) (hv : Verif.Space.IsValue dom center) (conf : ℝ)
    (h0 : 0 ≤ conf) (h1 : conf ≤ 1) :
    ∃ loc scale d, dom.toUnit center = some loc ∧
      makeCentered [dom] [some (center, conf)] =
        some [⟨.truncNormal loc scale, Verif.Space.Domain.unitFloat⟩] ∧
      TruncNormal.make loc (1 - conf) 0 1 = some d ∧ d = ⟨loc, scale, 0, 1⟩ ∧ d.Central ∧
      (conf ≤ 1 - 1 / 1000000 → scale = 1 - conf) ∧
      ∀ p, d.icdf p = (Dist.truncNormal loc scale).draw (d.stdIcdf p) := by
  obtain ⟨loc, hl, hl0, hl1⟩ := Verif.Space.Domain.toUnit_unit hd.shape hv
  have he := TruncNormal.eps_val
  have hs : 0 < max (1 - conf) eps := lt_of_lt_of_le (by rw [he]; norm_num) (le_max_right _ _)
  refine ⟨loc, max (1 - conf) eps, ⟨loc, max (1 - conf) eps, 0, 1⟩, hl, ?_, ?_, rfl, ?_, ?_, ?_⟩
  · have hone : centeredOne dom (some (center, conf)) =
        some ⟨.truncNormal loc (max (1 - conf) eps), Verif.Space.Domain.unitFloat⟩ := by
      unfold centeredOne
      simp [h0, h1, hc, hl]
    simp [makeCentered, hone]
  · unfold TruncNormal.make
    rw [if_neg]
    rw [not_le]
    apply div_lt_div_of_pos_right _ hs
    linarith
  · refine ⟨hs, hl0, hl1, ?_⟩
    simp only
    apply max_le <;> linarith
  · intro h
    apply max_eq_left
    linarith
  · intro p
    rfl

/-- The hypotheses of the theorems are met: the position 0.95 with low confidence. -/
example : TruncNormal.Central ⟨19 / 20, 3 / 4, 0, 1⟩ := by
  constructor <;> norm_num

end Verif.Sampling
