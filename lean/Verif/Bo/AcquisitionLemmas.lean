import Verif.Bo.Acquisition
import Verif.Bo.AcquisitionSpec
import Mathlib.MeasureTheory.Integral.IntegralEqImproper
import Mathlib.Analysis.SpecialFunctions.Gaussian.GaussianIntegral

/-!
# Lemmas about the acquisition functions
-/

namespace Verif.Bo.Acq

open MeasureTheory ProbabilityTheory Filter Topology

theorem pdf_eq (u : ℝ) : pdf u = gaussianPDFReal 0 1 u :=
  Real.exp_log (gaussianPDFReal_pos 0 1 u (by simp))

theorem std_pdf (u : ℝ) : gaussianPDFReal 0 1 u = (Real.sqrt (2 * Real.pi))⁻¹ * Real.exp (-(u ^ 2) / 2) := by
  simp [gaussianPDFReal]

theorem hasDerivAt_pdf (u : ℝ) :
    HasDerivAt (gaussianPDFReal 0 1) (-u * gaussianPDFReal 0 1 u) u := by
  have h : gaussianPDFReal 0 1 = fun u => (Real.sqrt (2 * Real.pi))⁻¹ * Real.exp (-(u ^ 2) / 2) := by
    funext u; exact std_pdf u
  rw [h]
  have h1 : HasDerivAt (fun u : ℝ => -(u ^ 2) / 2) (-u) u := by
    have := ((hasDerivAt_pow 2 u).neg).div_const 2
    refine this.congr_deriv ?_
    simp only [Nat.cast_ofNat]
    ring
  have h2 := (h1.exp).const_mul (Real.sqrt (2 * Real.pi))⁻¹
  refine h2.congr_deriv ?_
  ring

theorem integrable_mul_pdf : Integrable fun z : ℝ => z * gaussianPDFReal 0 1 z := by
  have h := integrable_mul_exp_neg_mul_sq (b := 1 / 2) (by norm_num)
  have := h.const_mul (Real.sqrt (2 * Real.pi))⁻¹
  refine this.congr (Eventually.of_forall fun z => ?_)
  simp only [std_pdf]
  rw [show -(z ^ 2) / 2 = -(1 / 2) * z ^ 2 by ring]
  ring

theorem tendsto_pdf : Tendsto (gaussianPDFReal 0 1) atBot (𝓝 0) := by
  have h : gaussianPDFReal 0 1 = fun u => (Real.sqrt (2 * Real.pi))⁻¹ * Real.exp (-(u ^ 2) / 2) := by
    funext u; exact std_pdf u
  rw [h]
  have h1 : Tendsto (fun u : ℝ => -(u ^ 2) / 2) atBot atBot := by
    have : Tendsto (fun u : ℝ => u ^ 2) atBot atTop := by
      refine ((tendsto_pow_atTop (α := ℝ) two_ne_zero).comp tendsto_neg_atBot_atTop).congr fun u => ?_
      simp
    have := this.const_mul_atTop (show (0 : ℝ) < 1 / 2 by norm_num)
    have := tendsto_neg_atTop_atBot.comp this
    refine this.congr fun u => ?_
    simp only [Function.comp]
    ring
  have h2 := (Real.tendsto_exp_atBot.comp h1).const_mul (Real.sqrt (2 * Real.pi))⁻¹
  simpa using h2

theorem integral_id_pdf (u : ℝ) :
    ∫ z in Set.Iic u, z * gaussianPDFReal 0 1 z = - gaussianPDFReal 0 1 u := by
  have h := integral_Iic_of_hasDerivAt_of_tendsto' (a := u) (f := gaussianPDFReal 0 1)
    (f' := fun z => -z * gaussianPDFReal 0 1 z) (fun x _ => hasDerivAt_pdf x)
    (by
      have := integrable_mul_pdf.neg.integrableOn (s := Set.Iic u)
      refine this.congr_fun (fun z _ => ?_) measurableSet_Iic
      simp) tendsto_pdf
  simp only [neg_mul, integral_neg, sub_zero] at h
  linarith

/-- The integral of the improvement for the standard normal distribution. -/
theorem integral_improvement (u : ℝ) :
    ∫ z, max (u - z) 0 ∂gaussianReal 0 1 = gaussianPDFReal 0 1 u + u * cdf u := by
  rw [integral_gaussianReal_eq_integral_smul (by simp)]
  have e : (fun z : ℝ => gaussianPDFReal 0 1 z • max (u - z) 0) =
      Set.indicator (Set.Iic u) fun z => u * gaussianPDFReal 0 1 z - z * gaussianPDFReal 0 1 z := by
    funext z
    by_cases hz : z ≤ u
    · rw [Set.indicator_of_mem (Set.mem_Iic.mpr hz), max_eq_left (by linarith), smul_eq_mul]
      ring
    · rw [Set.indicator_of_notMem (by simpa using hz), max_eq_right (by linarith [not_le.mp hz]),
        smul_zero]
  rw [e, integral_indicator measurableSet_Iic, integral_sub, integral_const_mul, integral_id_pdf]
  · unfold cdf
    ring
  · exact ((integrable_gaussianPDFReal 0 1).const_mul u).integrableOn
  · exact integrable_mul_pdf.integrableOn

/-- A normal distribution is the standard one, scaled and shifted. -/
theorem integral_std (g : ℝ → ℝ) (hg : Continuous g) (mu : ℝ) {var : ℝ} (hv : 0 ≤ var) :
    ∫ y, g y ∂gaussianReal mu var.toNNReal =
      ∫ z, g (Real.sqrt var * z + mu) ∂gaussianReal 0 1 := by
  have h1 := gaussianReal_map_const_mul (μ := 0) (v := 1) (Real.sqrt var)
  have h2 := gaussianReal_map_add_const (μ := 0) (v := var.toNNReal) mu
  have e : NNReal.mk (Real.sqrt var ^ 2) (sq_nonneg _) * 1 = var.toNNReal := by
    rw [mul_one]
    apply NNReal.eq
    simp [Real.sq_sqrt hv, hv]
  rw [e, mul_zero] at h1
  rw [zero_add, ← h1] at h2
  rw [← h2, integral_map (by fun_prop) hg.aestronglyMeasurable,
    integral_map (by fun_prop) (by fun_prop)]

theorem integrable_improvement (a b : ℝ) :
    Integrable (fun z => max (a - b * z) 0) (gaussianReal 0 1) := by
  have h : Integrable (fun z : ℝ => z) (gaussianReal 0 1) :=
    (memLp_id_gaussianReal 1).integrable (by norm_num)
  exact ((integrable_const a).sub (h.const_mul b)).sup (integrable_const 0)

theorem ei_std (target mu : ℝ) {var : ℝ} (hv : 0 ≤ var) :
    ExpectedImprovement target mu var =
      ∫ z, max (target - mu - Real.sqrt var * z) 0 ∂gaussianReal 0 1 := by
  unfold ExpectedImprovement
  rw [integral_std (fun y => max (target - y) 0) (by fun_prop) mu hv]
  congr 1
  funext z
  congr 1
  ring

/-- The closed form of the expected improvement. -/
theorem ei_closed (target mu : ℝ) {var : ℝ} (hv : 0 < var) :
    ExpectedImprovement target mu var =
      Real.sqrt var * gaussianPDFReal 0 1 ((target - mu) / Real.sqrt var) +
        (target - mu) * cdf ((target - mu) / Real.sqrt var) := by
  have hs := Real.sqrt_pos.mpr hv
  rw [ei_std target mu hv.le]
  have e : (fun z : ℝ => max (target - mu - Real.sqrt var * z) 0) =
      fun z => Real.sqrt var * max ((target - mu) / Real.sqrt var - z) 0 := by
    funext z
    rw [mul_max_of_nonneg _ _ hs.le, mul_zero, mul_sub, mul_div_cancel₀ _ hs.ne']
  rw [e, integral_const_mul, integral_improvement, mul_add, ← mul_assoc, mul_div_cancel₀ _ hs.ne']

theorem ei_zero (target mu : ℝ) : ExpectedImprovement target mu 0 = max (target - mu) 0 := by
  simp [ExpectedImprovement]

theorem log_zero (target mu : ℝ) :
    ExpectedLogImprovement target mu 0 = max (Real.exp target - Real.exp mu) 0 := by
  simp [ExpectedLogImprovement]

theorem exp_mul_pdf (s z : ℝ) :
    Real.exp (s * z) * gaussianPDFReal 0 1 z = Real.exp (s ^ 2 / 2) * gaussianPDFReal 0 1 (z - s) := by
  rw [std_pdf, std_pdf, mul_left_comm, mul_left_comm (Real.exp (s ^ 2 / 2)), ← Real.exp_add,
    ← Real.exp_add]
  congr 2
  ring

theorem integrable_shift (s : ℝ) : Integrable fun z : ℝ => gaussianPDFReal 0 1 (z - s) :=
  (integrable_gaussianPDFReal 0 1).comp_sub_right s

theorem integral_shift (s v : ℝ) :
    ∫ z in Set.Iic v, gaussianPDFReal 0 1 (z - s) = cdf (v - s) := by
  unfold cdf
  rw [← integral_indicator measurableSet_Iic, ← integral_indicator measurableSet_Iic,
    ← integral_sub_right_eq_self ((Set.Iic (v - s)).indicator _) s]
  congr 1
  funext z
  by_cases h : z ≤ v
  · rw [Set.indicator_of_mem (Set.mem_Iic.mpr h),
      Set.indicator_of_mem (Set.mem_Iic.mpr (by linarith))]
  · rw [Set.indicator_of_notMem (by simpa using h),
      Set.indicator_of_notMem (by simp only [Set.mem_Iic]; intro h'; exact h (by linarith))]

/-- The closed form of the expected improvement of logarithms. -/
theorem log_closed (target mu : ℝ) {var : ℝ} (hv : 0 < var) :
    ExpectedLogImprovement target mu var =
      Real.exp target * cdf ((target - mu) / Real.sqrt var) -
        Real.exp (var / 2 + mu) * cdf ((target - mu) / Real.sqrt var - Real.sqrt var) := by
  have hs := Real.sqrt_pos.mpr hv
  unfold ExpectedLogImprovement
  rw [integral_std (fun y => max (Real.exp target - Real.exp y) 0) (by fun_prop) mu hv.le,
    integral_gaussianReal_eq_integral_smul (by simp)]
  have e : (fun z : ℝ => gaussianPDFReal 0 1 z •
        max (Real.exp target - Real.exp (Real.sqrt var * z + mu)) 0) =
      Set.indicator (Set.Iic ((target - mu) / Real.sqrt var)) fun z =>
        Real.exp target * gaussianPDFReal 0 1 z -
          Real.exp (var / 2 + mu) * gaussianPDFReal 0 1 (z - Real.sqrt var) := by
    funext z
    have hz : z ≤ (target - mu) / Real.sqrt var ↔ Real.sqrt var * z + mu ≤ target := by
      rw [le_div_iff₀ hs]
      constructor <;> intro h <;> linarith
    by_cases h : z ≤ (target - mu) / Real.sqrt var
    · rw [Set.indicator_of_mem (Set.mem_Iic.mpr h),
        max_eq_left (sub_nonneg.mpr (Real.exp_le_exp.mpr (hz.mp h))), smul_eq_mul, mul_sub,
        mul_comm _ (Real.exp target), Real.exp_add, Real.exp_add]
      have := exp_mul_pdf (Real.sqrt var) z
      rw [Real.sq_sqrt hv.le] at this
      linear_combination (-Real.exp mu) * this
    · rw [Set.indicator_of_notMem (by simpa using h), max_eq_right, smul_zero]
      have := fun h' => h (hz.mpr h')
      exact sub_nonpos.mpr (Real.exp_le_exp.mpr (not_le.mp this).le)
  rw [e, integral_indicator measurableSet_Iic, integral_sub, integral_const_mul, integral_const_mul,
    integral_shift]
  · rfl
  · exact ((integrable_gaussianPDFReal 0 1).const_mul _).integrableOn
  · exact ((integrable_shift _).const_mul _).integrableOn

theorem ei_nonneg (target mu var : ℝ) : 0 ≤ ExpectedImprovement target mu var :=
  integral_nonneg fun _ => le_max_right _ _

/-- A lower mean gives a greater expected improvement. -/
theorem ei_mean (target : ℝ) {mu mu' var : ℝ} (hv : 0 ≤ var) (h : mu ≤ mu') :
    ExpectedImprovement target mu' var ≤ ExpectedImprovement target mu var := by
  rw [ei_std _ _ hv, ei_std _ _ hv]
  refine integral_mono (integrable_improvement _ _) (integrable_improvement _ _) fun z => ?_
  exact max_le_max (by simp only; linarith) le_rfl

theorem integral_flip (a s : ℝ) :
    ∫ z, max (a - -s * z) 0 ∂gaussianReal 0 1 = ∫ z, max (a - s * z) 0 ∂gaussianReal 0 1 := by
  have h := gaussianReal_map_neg (μ := 0) (v := 1)
  rw [neg_zero] at h
  conv_rhs => rw [← h]
  rw [integral_map (by fun_prop) (by fun_prop)]
  simp

/-- A greater variance gives a greater expected improvement. -/
theorem ei_variance (target mu : ℝ) {var var' : ℝ} (hv : 0 ≤ var) (h : var ≤ var') :
    ExpectedImprovement target mu var ≤ ExpectedImprovement target mu var' := by
  rw [ei_std _ _ hv, ei_std _ _ (hv.trans h)]
  have hs : Real.sqrt var ≤ Real.sqrt var' := Real.sqrt_le_sqrt h
  have h0 := Real.sqrt_nonneg var
  generalize Real.sqrt var = s at *
  generalize Real.sqrt var' = s' at *
  generalize target - mu = a
  rcases eq_or_lt_of_le (h0.trans hs) with h' | h'
  · have : s = s' := by linarith
    rw [this]
  have key : ∫ z, max (a - s * z) 0 ∂gaussianReal 0 1 ≤
      ∫ z, ((s' + s) / (2 * s') * max (a - s' * z) 0 +
        (s' - s) / (2 * s') * max (a - -s' * z) 0) ∂gaussianReal 0 1 := by
    refine integral_mono (integrable_improvement _ _)
      (((integrable_improvement _ _).const_mul _).add
        ((integrable_improvement _ _).const_mul _)) fun z => ?_
    have p1 : 0 ≤ (s' + s) / (2 * s') := by positivity
    have p2 : 0 ≤ (s' - s) / (2 * s') := div_nonneg (by linarith) (by linarith)
    have e : a - s * z = (s' + s) / (2 * s') * (a - s' * z) + (s' - s) / (2 * s') * (a - -s' * z) := by
      field_simp
      ring
    refine max_le ?_ (add_nonneg (mul_nonneg p1 (le_max_right _ _)) (mul_nonneg p2 (le_max_right _ _)))
    rw [e]
    exact add_le_add (mul_le_mul_of_nonneg_left (le_max_left _ _) p1)
      (mul_le_mul_of_nonneg_left (le_max_left _ _) p2)
  rw [integral_add ((integrable_improvement _ _).const_mul _)
    ((integrable_improvement _ _).const_mul _), integral_const_mul, integral_const_mul,
    integral_flip] at key
  have e : (s' + s) / (2 * s') + (s' - s) / (2 * s') = 1 := by
    field_simp
    ring
  rw [← add_mul, e, one_mul] at key
  exact key

theorem foldl_min_mem (l : List ℝ) : ∀ a, l.foldl min a ∈ a :: l := by
  induction l with
  | nil => simp
  | cons b l ih =>
    intro a
    rw [List.foldl_cons]
    rcases List.mem_cons.mp (ih (min a b)) with h | h
    · rw [h]
      rcases min_choice a b with h' | h' <;> simp [h']
    · exact List.mem_cons_of_mem _ (List.mem_cons_of_mem _ h)

theorem foldl_min_le (l : List ℝ) : ∀ a, ∀ b ∈ a :: l, l.foldl min a ≤ b := by
  induction l with
  | nil => simp
  | cons c l ih =>
    intro a b hb
    rw [List.foldl_cons]
    have h := ih (min a c)
    rcases List.mem_cons.mp hb with rfl | hb
    · exact (h _ List.mem_cons_self).trans (min_le_left _ _)
    · rcases List.mem_cons.mp hb with rfl | hb
      · exact (h _ List.mem_cons_self).trans (min_le_right _ _)
      · exact h _ (List.mem_cons_of_mem _ hb)

theorem argminFrom_spec (l : List ℝ) : ∀ (pre : List ℝ) (b : ℝ × ℕ), pre[b.2]? = some b.1 →
    (∀ j a, pre[j]? = some a → b.1 ≤ a ∧ (j < b.2 → b.1 < a)) →
    ∃ m, (pre ++ l)[argminFrom pre.length b l]? = some m ∧
      ∀ j a, (pre ++ l)[j]? = some a → m ≤ a ∧ (j < argminFrom pre.length b l → m < a) := by
  induction l with
  | nil => intro pre b h1 h2; exact ⟨b.1, by simpa [argminFrom] using h1, by simpa [argminFrom] using h2⟩
  | cons c l ih =>
    intro pre b h1 h2
    have hlen : pre.length + 1 = (pre ++ [c]).length := by simp
    have happ : pre ++ c :: l = (pre ++ [c]) ++ l := by simp
    have hb : b.2 < pre.length := (List.getElem?_eq_some_iff.mp h1).1
    have cases' : ∀ j a, (pre ++ [c])[j]? = some a → pre[j]? = some a ∨ (j = pre.length ∧ a = c) := by
      intro j a hj
      rcases Nat.lt_trichotomy j pre.length with h | h | h
      · rw [List.getElem?_append_left h] at hj
        exact Or.inl hj
      · subst h
        simp at hj
        exact Or.inr ⟨rfl, hj.symm⟩
      · rw [List.getElem?_eq_none (by simp; omega)] at hj
        exact absurd hj (by simp)
    unfold argminFrom
    rw [happ, hlen]
    split
    · rename_i hc
      refine ih (pre ++ [c]) (c, pre.length) (by simp) ?_
      intro j a hj
      rcases cases' j a hj with h | ⟨h, rfl⟩
      · have := (h2 j a h).1
        exact ⟨by simp only; linarith, fun _ => by simp only; linarith⟩
      · exact ⟨le_rfl, fun h' => by simp only at h'; omega⟩
    · rename_i hc
      refine ih (pre ++ [c]) b (by rw [List.getElem?_append_left hb]; exact h1) ?_
      intro j a hj
      rcases cases' j a hj with h | ⟨h, rfl⟩
      · exact h2 j a h
      · exact ⟨not_lt.mp hc, fun h' => by omega⟩

theorem argmin_spec {l : List ℝ} {i : ℕ} (h : argmin l = some i) :
    ∃ m, l[i]? = some m ∧ ∀ j a, l[j]? = some a → m ≤ a ∧ (j < i → m < a) := by
  cases l with
  | nil => simp [argmin] at h
  | cons a l =>
    simp only [argmin, Option.some.injEq] at h
    have := argminFrom_spec l [a] (a, 0) (by simp) (by
      intro j b hj
      cases j with
      | zero => simp at hj; simp [hj]
      | succ j => simp at hj)
    simp only [List.length_cons, List.length_nil, Nat.zero_add, List.singleton_append, h] at this
    exact this

theorem mapM_some {α β : Type} (f : α → Option β) (g : α → β) (l : List α)
    (h : ∀ a ∈ l, f a = some (g a)) : l.mapM f = some (l.map g) := by
  induction l with
  | nil => rfl
  | cons a l ih =>
    rw [List.mapM_cons, h a List.mem_cons_self, ih fun b hb => h b (List.mem_cons_of_mem _ hb)]
    rfl

theorem plain_some {xi best mu var : ℝ} (hv : 0 ≤ var) (h : var = 0 → best - xi ≠ mu) :
    plain xi best mu var = some (ExpectedImprovement (best - xi) mu var) := by
  unfold plain
  rw [if_neg (not_lt.mpr hv)]
  split
  · rename_i h0
    have := h h0
    subst h0
    rw [ei_zero, if_neg (fun e => this (by linarith))]
    split
    · rename_i hp
      rw [mul_one, max_eq_left (by linarith)]
      congr 1
      ring
    · rename_i hp
      rw [mul_zero, max_eq_right (by linarith)]
  · rename_i h0
    rw [ei_closed _ _ (lt_of_le_of_ne hv (Ne.symm h0))]
    simp only [pdf_eq]
    rw [show best - mu - xi = best - xi - mu by ring]

theorem logged_some {xi best mu var : ℝ} (hv : 0 ≤ var) (h : var = 0 → best - xi ≠ mu) :
    logged xi (.tensor best) mu var = some (ExpectedLogImprovement (best - xi) mu var) := by
  unfold logged
  simp only
  rw [if_neg (not_lt.mpr hv)]
  split
  · rename_i h0
    have := h h0
    subst h0
    rw [log_zero, if_neg (fun e => this (by linarith))]
    split
    · rename_i hp
      have := Real.exp_le_exp.mpr (show mu ≤ best - xi by linarith)
      rw [mul_zero, zero_add, mul_one, mul_one, max_eq_left (by linarith)]
    · rename_i hp
      have := Real.exp_le_exp.mpr (show best - xi ≤ mu by linarith)
      rw [mul_zero, mul_zero, sub_zero, max_eq_right (by linarith)]
  · rename_i h0
    rw [log_closed _ _ (lt_of_le_of_ne hv (Ne.symm h0))]
    rw [show (0.5 : ℝ) * var = var / 2 by ring]

end Verif.Bo.Acq
