import Verif.Space.PriorSpec
import Verif.Space.SpaceDemo
import Verif.Space.SpaceLemmas
import Mathlib.MeasureTheory.Integral.IntervalIntegral.IntegrationByParts
import Mathlib.Analysis.SpecialFunctions.Integrals.Basic

/-!
# C106: the prior of a configuration
-/

namespace Verif.Space

/-! ## The truncated normal distribution -/

theorem gauss_continuous (μ σ : ℝ) : Continuous fun t : ℝ => Real.exp (-((t - μ) / σ) ^ 2 / 2) := by
  fun_prop

theorem gauss_integral_pos {μ σ lo hi : ℝ} (h : lo < hi) :
    0 < ∫ t in lo..hi, Real.exp (-((t - μ) / σ) ^ 2 / 2) := by
  apply intervalIntegral.intervalIntegral_pos_of_pos_on
  · exact (gauss_continuous μ σ).intervalIntegrable _ _
  · intro x _
    exact Real.exp_pos _
  · exact h

/-- **C106**: it is a density: positive, with integral one. -/
theorem C106_density (μ σ lo hi : ℝ) (h : lo < hi) :
    (∀ x, 0 < truncDensity μ σ lo hi x) ∧ ∫ x in lo..hi, truncDensity μ σ lo hi x = 1 := by
  have hp := gauss_integral_pos (μ := μ) (σ := σ) h
  refine ⟨fun x => div_pos (Real.exp_pos _) hp, ?_⟩
  unfold truncDensity
  rw [intervalIntegral.integral_div]
  exact div_self hp.ne'

theorem truncPrior_eq {lo hi c s v : ℝ} (h : lo < hi) (hs : 0 < s) (h1 : lo ≤ v) (h2 : v ≤ hi) :
    truncPrior lo hi c s v = s * (hi - lo) * truncDensity c (s * (hi - lo)) lo hi v := by
  have hσ : 0 < s * (hi - lo) := mul_pos hs (by linarith)
  unfold truncPrior truncnormPdf truncDensity
  rw [mul_comm (hi - lo) s]
  generalize s * (hi - lo) = σ at hσ ⊢
  simp only
  rw [if_pos ⟨by gcongr, by gcongr⟩]
  have hi' : ∫ t in lo..hi, Real.exp (-((t - c) / σ) ^ 2 / 2) =
      σ * ∫ t in ((lo - c) / σ)..((hi - c) / σ), Real.exp (-t ^ 2 / 2) := by
    have := intervalIntegral.integral_comp_div_sub (a := lo) (b := hi)
      (fun t : ℝ => Real.exp (-t ^ 2 / 2)) hσ.ne' (c / σ)
    rw [smul_eq_mul] at this
    simp only [sub_div]
    exact this
  rw [hi', div_mul_eq_div_div_swap, mul_div_cancel₀]
  exact hσ.ne'

/-! ## One parameter -/

theorem onScale_mono {log : Bool} {x y : ℝ} (h0 : log = true → 0 < x) (h : x ≤ y) :
    onScale log x ≤ onScale log y := by
  cases log with
  | false => exact h
  | true => exact Real.log_le_log (h0 rfl) h

theorem onScale_strict {log : Bool} {x y : ℝ} (h0 : log = true → 0 < x) (h : x < y) :
    onScale log x < onScale log y := by
  cases log with
  | false => exact h
  | true => exact Real.log_lt_log (h0 rfl) h

theorem IntParam.Used.prior {p : IntParam} (h : p.Used) : p.hasPrior = p.dflt.isSome := by
  induction h with
  | @make l u log fid d s p h =>
    unfold IntParam.make at h
    simp only at h
    split_ifs at h
    rw [Option.bind_eq_bind, Option.bind_eq_some_iff] at h
    obtain ⟨f, -, h⟩ := h
    simp only [Option.pure_def, Option.some.injEq] at h
    subst h
    rfl
  | @setValue p v _ ih =>
    cases v with
    | none => exact ih
    | some v =>
      simp only [IntParam.setValue]
      split_ifs <;> exact ih
  | @setDefault p v _ ih => cases v <;> rfl
  | loadFrom v _ ih => exact ih
  | setConfidence s _ ih => cases s <;> exact ih

theorem catSum (k i : ℕ) (hi : i < k) (b : ℝ) :
    ((List.replicate k (1 : ℝ)).set i b).sum = b + ((k : ℝ) - 1) := by
  induction k generalizing i with
  | zero => omega
  | succ k ih =>
    cases i with
    | zero =>
      simp only [List.replicate_succ, List.set_cons_zero, List.sum_cons, List.sum_replicate,
        nsmul_eq_mul]
      push_cast; ring
    | succ i =>
      simp only [List.replicate_succ, List.set_cons_succ, List.sum_cons]
      rw [ih i (by omega)]
      push_cast; ring

theorem Hp.hasPrior_eq {h : Hp} (hok : h.Ok) : h.hasPrior = h.counts false := by
  have hu := hok.used
  cases h with
  | float p =>
    have := (FloatParam.Used.inv hu).prior
    simp [Hp.hasPrior, Hp.counts, Hp.dflt, this]
  | int p =>
    have := IntParam.Used.prior hu
    simp [Hp.hasPrior, Hp.counts, Hp.dflt, this]
  | cat p =>
    have := (CatParam.Used.inv hu).prior
    simp [Hp.hasPrior, Hp.counts, Hp.dflt, this]
  | const p => rfl

/-- What one parameter contributes. -/
theorem Hp.computePrior_eq {h : Hp} (hok : h.Ok) (hs : h.Settled) (hc : h.Confident)
    (hn : ¬ h.IsConst) {c v : Val} (hd : h.dflt = some c) (hv : h.value = some v) :
    h.computePrior = some (h.around c v) := by
  have hu := hok.used
  have hav := hok.value v hv
  have had := hok.dflt c hd
  cases h with
  | float p =>
    obtain ⟨x, rfl, hx1, hx2⟩ := hav
    obtain ⟨d, rfl, hd1, hd2⟩ := had
    have hi : p.Inv := FloatParam.Used.inv hu
    have hpv : p.value = some x := by
      simp only [Hp.value, Option.map_eq_some_iff, Val.num.injEq, exists_eq_right] at hv
      exact hv
    have hpd : p.dflt = some d := by
      simp only [Hp.dflt, Option.map_eq_some_iff, Val.num.injEq, exists_eq_right] at hd
      exact hd
    have h0 : p.log = true → 0 < x := fun hl => lt_of_lt_of_le (hi.pos hl) hx1
    simp only [Hp.computePrior, FloatParam.computePrior, hpv, hpd, Option.bind_eq_bind, Option.bind_some,
      Option.pure_def, Hp.around, Hp.std]
    congr 1
    exact truncPrior_eq (onScale_strict hi.pos hi.lt) hc (onScale_mono hi.pos hx1)
      (onScale_mono h0 hx2)
  | int p =>
    obtain ⟨x, rfl, hx1, hx2⟩ := hav
    obtain ⟨d, rfl, hd1, hd2⟩ := had
    have hi : p.Inv := IntParam.Used.inv hu
    have hpv : p.value = some x := by
      simp only [Hp.value, Option.map_eq_some_iff, Val.num.injEq, Int.cast_inj, exists_eq_right] at hv
      exact hv
    have hpd : p.dflt = some d := by
      simp only [Hp.dflt, Option.map_eq_some_iff, Val.num.injEq, Int.cast_inj, exists_eq_right] at hd
      exact hd
    have hpos : p.log = true → (0 : ℝ) < p.lower := fun hl => by exact_mod_cast hi.pos hl
    have hx1' : (p.lower : ℝ) ≤ x := by exact_mod_cast hx1
    have hx2' : (x : ℝ) ≤ p.upper := by exact_mod_cast hx2
    have h0 : p.log = true → (0 : ℝ) < x := fun hl => lt_of_lt_of_le (hpos hl) hx1'
    have hcen : p.priorCenter = some (onScale p.log d) := by
      unfold IntParam.priorCenter
      have hs' : p.logDflt = IntParam.logOf p.log p.dflt := hs
      rw [hs', hpd]
      cases p.log <;> simp [IntParam.logOf, onScale]
    have hlt : (p.lower : ℝ) < p.upper := by exact_mod_cast hi.lt
    simp only [Hp.computePrior, IntParam.computePrior, hpv, hcen, Option.bind_eq_bind, Option.bind_some,
      Option.pure_def, Hp.around, Hp.std]
    congr 1
    exact truncPrior_eq (onScale_strict hpos hlt) hc (onScale_mono hpos hx1')
      (onScale_mono h0 hx2')
  | cat p =>
    have hi : p.Inv := CatParam.Used.inv hu
    have hpv : p.value = some v := hv
    have hpd : p.dflt = some c := hd
    have hs' : p.valueIndex = p.value.bind (CatParam.index p.choices) := hs
    obtain ⟨i, hi1, hi2⟩ := CatParam.index_some (v := v) (choices := p.choices) hav
    obtain ⟨j, hj1, hj2⟩ := CatParam.index_some (v := c) (choices := p.choices) had
    have hvi : p.valueIndex = some i := by rw [hs', hpv]; exact hi1
    have hdi : p.dfltIndex = some j := by rw [hi.dfltIndex, hpd]; exact hj1
    have hil := (List.getElem?_eq_some_iff.mp hi2).1
    have hjl := (List.getElem?_eq_some_iff.mp hj2).1
    simp only [Hp.computePrior, CatParam.computePrior, hvi, CatParam.priorProbabilities, hdi,
      Option.bind_eq_bind, Option.bind_some, Option.map_some, Hp.around]
    rw [catSum _ _ hjl, List.getElem?_map, List.getElem?_set, List.getElem?_replicate]
    by_cases hij : i = j
    · subst hij
      have : v = c := by rw [hi2] at hj2; exact Option.some.inj hj2
      simp [this, hil]
    · have hvc : v ≠ c := by
        rintro rfl
        rw [hi1] at hj1
        exact hij (Option.some.inj hj1)
      rw [if_neg (fun h => hij h.symm), if_neg hvc, if_pos hil]
      rfl
  | const p => exact absurd trivial hn

theorem Hp.around_pos {h : Hp} (hok : h.Ok) (hc : h.Confident) (c v : Val) : 0 < h.around c v := by
  have hu := hok.used
  cases h with
  | float p =>
    have hi : p.Inv := FloatParam.Used.inv hu
    have hlt := onScale_strict hi.pos hi.lt
    have hc' : 0 < p.score := hc
    cases c <;> cases v <;> simp only [Hp.around, zero_lt_one]
    exact mul_pos (mul_pos hc' (by linarith)) ((C106_density _ _ _ _ hlt).1 _)
  | int p =>
    have hi : p.Inv := IntParam.Used.inv hu
    have hlt := onScale_strict (log := p.log) (x := (p.lower : ℝ)) (y := (p.upper : ℝ))
      (fun hl => by exact_mod_cast hi.pos hl) (by exact_mod_cast hi.lt)
    have hc' : 0 < p.score := hc
    cases c <;> cases v <;> simp only [Hp.around, zero_lt_one]
    exact mul_pos (mul_pos hc' (by linarith)) ((C106_density _ _ _ _ hlt).1 _)
  | cat p =>
    have hi : p.Inv := CatParam.Used.inv hu
    have h2 : (2 : ℝ) ≤ p.choices.length := by exact_mod_cast hi.two
    have hc' : (0 : ℝ) < p.score := by exact_mod_cast (hc : 0 < p.score)
    simp only [Hp.around]
    apply div_pos _ (by linarith)
    split_ifs <;> linarith
  | const p => simp [Hp.around]

/-! ## The space -/

namespace SearchSpace

theorem priorLoop_eq (log ign : Bool) : ∀ (s : SearchSpace) (acc : ℝ), (∀ p ∈ s, p.2.Ok) → s.Valued →
    (∀ p ∈ s, p.2.Settled ∧ p.2.Confident) →
    priorLoop log ign s acc = some (if log then
        acc + ((s.filter fun p => p.2.counts ign).map
          fun p => Real.log (p.2.likelihood + 1e-12)).sum
      else acc * ((s.filter fun p => p.2.counts ign).map fun p => p.2.likelihood).prod) := by
  intro s
  induction s with
  | nil => intro acc _ _ _; cases log <;> simp [priorLoop]
  | cons q s ih =>
    intro acc hok hval hset
    obtain ⟨k, h⟩ := q
    have ih := fun acc => ih acc (fun p hp => hok p (List.mem_cons_of_mem _ hp))
      (fun p hp => hval p (List.mem_cons_of_mem _ hp)) (fun p hp => hset p (List.mem_cons_of_mem _ hp))
    have hok' : h.Ok := hok (k, h) List.mem_cons_self
    obtain ⟨hs, hc⟩ : h.Settled ∧ h.Confident := hset (k, h) List.mem_cons_self
    have hv : h.value ≠ none := hval (k, h) List.mem_cons_self
    have hp := Hp.hasPrior_eq hok'
    unfold priorLoop
    by_cases h1 : h.hasPrior = false
    · rw [if_pos h1, ih]
      have : h.counts ign = false := by
        rw [hp] at h1
        cases h <;> simp_all [Hp.counts]
      simp only [List.filter_cons, this, Bool.false_eq_true, if_false]
    · rw [if_neg h1]
      have h1' : h.counts false = true := by rw [← hp]; simpa using h1
      by_cases h2 : ign = true ∧ h.isFidelity = true
      · rw [if_pos h2, ih]
        have : h.counts ign = false := by
          clear ih hok hval hset
          cases h <;> simp_all [Hp.counts]
        simp only [List.filter_cons, this, Bool.false_eq_true, if_false]
      · rw [if_neg h2]
        have hcn : h.counts ign = true := by
          clear ih hok hval hset
          cases ign <;> cases h <;> simp_all [Hp.counts]
        have hnc : ¬ h.IsConst := by
          clear ih hok hval hset
          cases h <;> simp_all [Hp.IsConst, Hp.counts]
        have hd : ∃ c, h.dflt = some c := by
          rw [← Option.isSome_iff_exists]
          clear ih hok hval hset
          cases h <;> simp_all [Hp.counts]
        obtain ⟨c, hd⟩ := hd
        obtain ⟨v, hv⟩ := Option.ne_none_iff_exists'.1 hv
        have hl : h.likelihood = h.around c v := by unfold Hp.likelihood; rw [hd, hv]
        have e : hpPrior log h = some (if log then Real.log (h.likelihood + 1e-12) else h.likelihood) := by
          unfold hpPrior
          rw [Hp.computePrior_eq hok' hs hc hnc hd hv, hl]
          rfl
        rw [e]
        simp only
        rw [ih]
        simp only [List.filter_cons, hcn, if_true, List.map_cons, List.sum_cons, List.prod_cons]
        cases log <;> simp [add_assoc, mul_assoc]

/-- **C106**: the prior of a configuration is the product of the likelihoods of its values, over the
parameters that have a default (and are not an ignored fidelity). -/
theorem C106_product_partial (s : SearchSpace) (ign : Bool) (hok : ∀ p ∈ s, p.2.Ok) (hv : s.Valued)
    (hs : ∀ p ∈ s, p.2.Settled ∧ p.2.Confident) :
    s.computePrior false ign =
      some ((s.filter fun p => p.2.counts ign).map fun p => p.2.likelihood).prod := by
  unfold computePrior
  rw [priorLoop_eq false ign s _ hok hv hs]
  simp

/-- **C106**: the log prior is the sum of the logarithms of the likelihoods plus `1e-12`. -/
theorem C106_log_partial (s : SearchSpace) (ign : Bool) (hok : ∀ p ∈ s, p.2.Ok) (hv : s.Valued)
    (hs : ∀ p ∈ s, p.2.Settled ∧ p.2.Confident) :
    s.computePrior true ign =
      some ((s.filter fun p => p.2.counts ign).map fun p => Real.log (p.2.likelihood + 1e-12)).sum := by
  unfold computePrior
  rw [priorLoop_eq true ign s _ hok hv hs]
  simp

end SearchSpace

/-! ## Closer is more likely -/

theorem truncDensity_le {μ σ lo hi x y : ℝ} (h : lo < hi) (hxy : |y - μ| ≤ |x - μ|) :
    truncDensity μ σ lo hi x ≤ truncDensity μ σ lo hi y := by
  unfold truncDensity
  have hp := gauss_integral_pos (μ := μ) (σ := σ) h
  have hsq : ((y - μ) / σ) ^ 2 ≤ ((x - μ) / σ) ^ 2 := by
    rw [div_pow, div_pow]
    exact div_le_div_of_nonneg_right (sq_le_sq.2 hxy) (sq_nonneg σ)
  apply div_le_div_of_nonneg_right _ hp.le
  apply Real.exp_le_exp.2
  linarith

theorem Hp.likelihood_pos {h : Hp} (hok : h.Ok) (hc : h.Confident) : 0 < h.likelihood := by
  unfold Hp.likelihood
  split
  · exact Hp.around_pos hok hc _ _
  · exact one_pos

/-- The confidence of a categorical parameter is at least one. -/
def Hp.WeightOne : Hp → Prop
  | .cat p => 1 ≤ p.score
  | _ => True

theorem Hp.likelihood_le {a b : Hp} (ha : a.Ok) (hb : b.Ok) (hc : a.Confident) (hw : a.WeightOne)
    (hd : a.SameDecl b)
    (hs : a.SameScore b) (hcl : a.Closer b) (hva : a.value ≠ none) (hvb : b.value ≠ none) :
    a.likelihood ≤ b.likelihood := by
  have hdf := hd.dflt
  unfold Hp.likelihood
  rw [hdf]
  obtain ⟨v, hv⟩ := Option.ne_none_iff_exists'.1 hva
  obtain ⟨w, hw'⟩ := Option.ne_none_iff_exists'.1 hvb
  rw [hv, hw']
  cases hda : a.dflt with
  | none => exact le_refl _
  | some c =>
    simp only
    have hav := ha.value v hv
    have hbv := hb.value w hw'
    have hac := ha.dflt c hda
    have hu := ha.used
    cases a with
    | float p =>
      cases b with
      | float q =>
        obtain ⟨e1, e2, e3, -, -⟩ := hd
        have hs' : q.score = p.score := hs
        obtain ⟨x, rfl, -⟩ := hav
        obtain ⟨y, rfl, -⟩ := hbv
        obtain ⟨d, rfl, -⟩ := hac
        have hpd : p.dflt = some d := by
          simp only [Hp.dflt, Option.map_eq_some_iff, Val.num.injEq, exists_eq_right] at hda
          exact hda
        have hi : p.Inv := FloatParam.Used.inv hu
        have hlt := onScale_strict hi.pos hi.lt
        have hc' : 0 < p.score := hc
        simp only [Hp.around, Hp.std, e1, e2, e3, hs']
        exact mul_le_mul_of_nonneg_left (truncDensity_le hlt (hcl d x y hpd hv hw'))
          (mul_pos hc' (by linarith)).le
      | int q => exact absurd hd (by simp [Hp.SameDecl])
      | cat q => exact absurd hd (by simp [Hp.SameDecl])
      | const q => exact absurd hd (by simp [Hp.SameDecl])
    | int p =>
      cases b with
      | int q =>
        obtain ⟨e1, e2, e3, -, -⟩ := hd
        have hs' : q.score = p.score := hs
        obtain ⟨x, rfl, -⟩ := hav
        obtain ⟨y, rfl, -⟩ := hbv
        obtain ⟨d, rfl, -⟩ := hac
        have hpd : p.dflt = some d := by
          simp only [Hp.dflt, Option.map_eq_some_iff, Val.num.injEq, Int.cast_inj, exists_eq_right] at hda
          exact hda
        have hi : p.Inv := IntParam.Used.inv hu
        have hlt := onScale_strict (log := p.log) (x := (p.lower : ℝ)) (y := (p.upper : ℝ))
          (fun hl => by exact_mod_cast hi.pos hl) (by exact_mod_cast hi.lt)
        have hc' : 0 < p.score := hc
        simp only [Hp.around, Hp.std, e1, e2, e3, hs']
        exact mul_le_mul_of_nonneg_left (truncDensity_le hlt (hcl d x y hpd hv hw'))
          (mul_pos hc' (by linarith)).le
      | float q => exact absurd hd (by simp [Hp.SameDecl])
      | cat q => exact absurd hd (by simp [Hp.SameDecl])
      | const q => exact absurd hd (by simp [Hp.SameDecl])
    | cat p =>
      cases b with
      | cat q =>
        obtain ⟨e1, -⟩ := hd
        have hs' : q.score = p.score := hs
        have hi : p.Inv := CatParam.Used.inv hu
        have h2 : (2 : ℝ) ≤ p.choices.length := by exact_mod_cast hi.two
        have hw1 : (1 : ℝ) ≤ p.score := by exact_mod_cast (hw : 1 ≤ p.score)
        have hcl' : v = c → w = c := by
          intro h
          have hpd : p.dflt = some c := hda
          have := hcl (by rw [hv, hpd, h])
          rw [hw', hpd] at this
          exact Option.some.inj this
        simp only [Hp.around, e1, hs']
        apply div_le_div_of_nonneg_right _ (by linarith)
        by_cases hvc : v = c
        · rw [if_pos hvc, if_pos (hcl' hvc)]
        · rw [if_neg hvc]
          split_ifs <;> linarith
      | float q => exact absurd hd (by simp [Hp.SameDecl])
      | int q => exact absurd hd (by simp [Hp.SameDecl])
      | const q => exact absurd hd (by simp [Hp.SameDecl])
    | const p =>
      cases b with
      | const q => exact le_refl _
      | float q => exact absurd hd (by simp [Hp.SameDecl])
      | int q => exact absurd hd (by simp [Hp.SameDecl])
      | cat q => exact absurd hd (by simp [Hp.SameDecl])

theorem Hp.SameDecl.counts {a b : Hp} (h : a.SameDecl b) (ign : Bool) : b.counts ign = a.counts ign := by
  have h1 := h.dflt
  have h2 := h.isFidelity
  cases a <;> cases b <;> simp_all [Hp.counts, Hp.SameDecl]

namespace SearchSpace

theorem prod_le_sum_le (ign : Bool) {s t : SearchSpace}
    (h : List.Forall₂ (fun p q : String × Hp => q.2.counts ign = p.2.counts ign ∧
      0 < p.2.likelihood ∧ p.2.likelihood ≤ q.2.likelihood) s t) :
    0 < ((s.filter fun p => p.2.counts ign).map fun p => p.2.likelihood).prod ∧
    ((s.filter fun p => p.2.counts ign).map fun p => p.2.likelihood).prod ≤
      ((t.filter fun p => p.2.counts ign).map fun p => p.2.likelihood).prod ∧
    ((s.filter fun p => p.2.counts ign).map fun p => Real.log (p.2.likelihood + 1e-12)).sum ≤
      ((t.filter fun p => p.2.counts ign).map fun p => Real.log (p.2.likelihood + 1e-12)).sum := by
  induction h with
  | nil => simp
  | @cons p q s t hpq _ ih =>
    obtain ⟨h1, h2, h3⟩ := hpq
    obtain ⟨i1, i2, i3⟩ := ih
    cases hc : p.2.counts ign with
    | false =>
      rw [hc] at h1
      simp only [List.filter_cons, hc, h1, Bool.false_eq_true, if_false]
      exact ⟨i1, i2, i3⟩
    | true =>
      rw [hc] at h1
      simp only [List.filter_cons, hc, h1, if_true, List.map_cons, List.prod_cons, List.sum_cons]
      refine ⟨mul_pos h2 i1, mul_le_mul h3 i2 i1.le (h2.le.trans h3), add_le_add ?_ i3⟩
      apply Real.log_le_log (by positivity)
      linarith

/-- **C106**: of two configurations of a space, the one that is at least as close to the defaults in every
parameter has at least the prior, and at least the log prior, of the other one. -/
theorem C106_closer_partial (s t : SearchSpace) (ign : Bool) (hok : ∀ p ∈ s, p.2.Ok) (hok' : ∀ p ∈ t, p.2.Ok)
    (hv : s.Valued) (hv' : t.Valued) (hs : ∀ p ∈ s, p.2.Settled ∧ p.2.Confident)
    (hs' : ∀ p ∈ t, p.2.Settled ∧ p.2.Confident) (hw : ∀ p ∈ s, p.2.WeightOne)
    (hst : List.Forall₂ (fun p q : String × Hp => p.2.SameDecl q.2 ∧ p.2.SameScore q.2 ∧
      p.2.Closer q.2) s t) :
    (∃ x y, s.computePrior false ign = some x ∧ t.computePrior false ign = some y ∧ x ≤ y) ∧
    ∃ x y, s.computePrior true ign = some x ∧ t.computePrior true ign = some y ∧ x ≤ y := by
  have h : List.Forall₂ (fun p q : String × Hp => q.2.counts ign = p.2.counts ign ∧
      0 < p.2.likelihood ∧ p.2.likelihood ≤ q.2.likelihood) s t := by
    apply forall₂_imp_mem hst
    intro p hp q hq ⟨h1, h2, h3⟩
    exact ⟨h1.counts ign, Hp.likelihood_pos (hok p hp) (hs p hp).2,
      Hp.likelihood_le (hok p hp) (hok' q hq) (hs p hp).2 (hw p hp) h1 h2 h3 (hv p hp) (hv' q hq)⟩
  obtain ⟨-, h2, h3⟩ := prod_le_sum_le ign h
  exact ⟨⟨_, _, C106_product_partial s ign hok hv hs, C106_product_partial t ign hok' hv' hs', h2⟩,
    ⟨_, _, C106_log_partial s ign hok hv hs, C106_log_partial t ign hok' hv' hs', h3⟩⟩

end SearchSpace

/-- **C106 fails** for an integer on a log scale whose default is changed: the prior stays where it was, and
if there was no default before, `compute_prior` raises although the parameter now has a prior. -/
theorem C106_set_default_fails (p : IntParam) (hl : p.log = true) (d : ℝ) :
    (p.setDefault (some d)).st.hasPrior = true ∧
    (p.setDefault (some d)).st.computePrior = p.computePrior ∧
    (p.logDflt = none → (p.setDefault (some d)).st.computePrior = none) := by
  refine ⟨rfl, ?_, ?_⟩
  · simp [IntParam.computePrior, IntParam.setDefault, IntParam.priorCenter, hl]
  · intro h
    simp only [IntParam.computePrior, IntParam.setDefault, IntParam.priorCenter, hl, if_true, h]
    cases p.value <;> rfl

/-- The prior of a space with a learning rate with a default and a fidelity without one. -/
example (x e : ℝ) (hx : 0 ≤ x ∧ x ≤ 1) (he : 1 ≤ e ∧ e ≤ 10) :
    (demoPair x e).computePrior false false =
      some ((Hp.float (demoFloat 0 1 false (some (1 / 2)) x)).around (.num (1 / 2)) (.num x)) := by
  rw [SearchSpace.C106_product_partial _ _ (demoPair_inOrder hx he).ok (demoPair_valued x e)
    (by simp [demoPair, Hp.Settled, Hp.Confident, demoFloat])]
  simp [demoPair, Hp.counts, Hp.dflt, Hp.likelihood, Hp.value, demoFloat]

/-- A learning rate of 0.4 is closer to the default 0.5 than one of 0.1. -/
example : ∃ x y, (demoPair (1 / 10) 3).computePrior false true = some x ∧
    (demoPair (2 / 5) 3).computePrior false true = some y ∧ x ≤ y := by
  apply (SearchSpace.C106_closer_partial (demoPair (1 / 10) 3) (demoPair (2 / 5) 3) true
    (demoPair_inOrder (by norm_num) (by norm_num)).ok (demoPair_inOrder (by norm_num) (by norm_num)).ok
    (demoPair_valued _ _) (demoPair_valued _ _) (by simp [demoPair, Hp.Settled, Hp.Confident, demoFloat])
    (by simp [demoPair, Hp.Settled, Hp.Confident, demoFloat]) (by simp [demoPair, Hp.WeightOne])
    (.cons ⟨⟨rfl, rfl, rfl, rfl, rfl⟩, rfl, ?_⟩ (.cons ⟨⟨rfl, rfl, rfl, rfl, rfl⟩, rfl, ?_⟩ .nil))).1
  · intro c x y hc hx hy
    simp only [demoFloat, Option.some.injEq] at hc
    simp only [demoFloat, Hp.value, Option.map_some, Option.some.injEq, Val.num.injEq] at hx hy
    subst hc hx hy
    norm_num [onScale, demoFloat, abs_of_neg]
  · rintro c x y ⟨⟩

end Verif.Space
