import Verif.Sampling.BorderProps
import Mathlib.Algebra.BigOperators.Group.List.Basic
import Mathlib.Tactic.Linarith

/-!
# C74: the distributions of a prior
-/

namespace Verif.Sampling

open Verif.Space Verif.Space.Domain

/-! ## Lemmas -/

/-- The domain of `k` indices. -/
noncomputable def indexDomain (k : ℕ) (cat : Bool) : Domain :=
  ⟨0, (k : ℝ) - 1, true, true, none, none, cat⟩

theorem indices_eq (k : ℕ) (cat : Bool) : indices k cat = some (indexDomain k cat) := by
  have h0 : rnd (0 : ℝ) = 0 := by have := rnd_intCast 0; simpa using this
  have h1 : (rnd ((k : ℝ) - 1) : ℝ) = (k : ℝ) - 1 := by
    have : ((k : ℝ) - 1) = (((k : ℤ) - 1 : ℤ) : ℝ) := by push_cast; ring
    rw [this, rnd_intCast]
  simp [indices, integer, mkLogBounds, make, Domain.card, card.byRound, h0, h1, indexDomain]

theorem indexDomain_card (k : ℕ) (cat : Bool) : (indexDomain k cat).card = some (k : ℤ) := by
  simp only [indexDomain, Domain.card, card.byRound, if_true, sub_zero, sub_add_cancel]
  simp

theorem indexDomain_declared {k : ℕ} (hk : 2 ≤ k) (cat : Bool) : Declared (indexDomain k cat) := by
  have hk' : (2 : ℝ) ≤ k := by exact_mod_cast hk
  refine ⟨⟨0, (k : ℝ) - 1, false, none, cat, Or.inr ?_, by simp⟩, ?_, by simp [indexDomain]⟩
  · exact indices_eq k cat
  · simp only [indexDomain]; linarith

theorem indexDomain_toUnit {k : ℕ} (hk : 2 ≤ k) (cat : Bool) {i : ℕ} (hi : i < k) :
    (indexDomain k cat).toUnit i = some ((i : ℝ) / ((k : ℝ) - 1)) := by
  have hs := (indexDomain_declared hk cat).shape
  unfold toUnit
  rw [if_neg (fun h => hs.not_unitFloat h.1), indexDomain_card]
  have hk' : (2 : ℝ) ≤ k := by exact_mod_cast hk
  have hne : ((k : ℝ) - 1) ≠ 0 := by intro h; linarith
  have hc : ((k : ℝ) - 1) = (((k : ℤ) - 1 : ℤ) : ℝ) := by push_cast; ring
  have := quantize_bin (q := k) (k := i) (by omega) (by omega) (by omega)
  rw [← hc] at this
  simp only [indexDomain, sub_zero, fdiv_eq hne, Option.bind_eq_bind, Option.bind_some]
  exact_mod_cast this

theorem cast_self_nat (k : ℕ) (cat : Bool) (i : ℕ) :
    (indexDomain k cat).cast i (indexDomain k cat) = some (i : ℝ) := by
  unfold Domain.cast
  rw [if_pos ⟨⟨rfl, rfl⟩, rfl, rfl⟩]
  have : ((i : ℝ)) = ((i : ℤ) : ℝ) := by push_cast; rfl
  rw [this]
  simp only [indexDomain, roundIf, rnd_intCast, asDtype, Int.floor_intCast,
    Int.ceil_intCast, ite_self]

theorem sum_set_replicate (k i : ℕ) (hi : i < k) (a b : ℝ) :
    ((List.replicate k a).set i b).sum = b + ((k : ℝ) - 1) * a := by
  induction k generalizing i with
  | zero => omega
  | succ k ih =>
    cases i with
    | zero =>
      simp only [List.replicate_succ, List.set_cons_zero, List.sum_cons, List.sum_replicate,
        nsmul_eq_mul]
      push_cast; ring
    | succ i =>
      simp only [List.replicate_succ, List.set_cons_succ, List.sum_cons]
      rw [ih i (by omega)]
      push_cast; ring

/-! ## C74 -/

/-- **C74, categorical domains.** For a domain of at least two indices marked as categorical, the
center gets the probability `conf`, and the other indices share the rest equally. -/
theorem C74_categorical (k : ℕ) (hk : 2 ≤ k) (i : ℕ) (hi : i < k) (conf : ℝ) (h0 : 0 ≤ conf)
    (h1 : conf ≤ 1) (d : Domain) (hd : indices k true = some d) :
    ∃ w, makeCentered [d] [some ((i : ℝ), conf)] = some [⟨.categorical w, d⟩] ∧
      w.length = k ∧ IsProbability w ∧ w[i]? = some conf ∧
      ∀ j, j ≠ i → j < k → w[j]? = some ((1 - conf) / ((k : ℝ) - 1)) := by
  rw [indices_eq] at hd
  simp only [Option.some.injEq] at hd
  subst hd
  have hk' : (2 : ℝ) ≤ k := by exact_mod_cast hk
  have hne : (((k : ℤ) - 1 : ℤ) : ℝ) ≠ 0 := by push_cast; intro h; linarith
  refine ⟨(List.replicate k ((1 - conf) / ((k : ℝ) - 1))).set i conf, ?_, by simp, ⟨?_, ?_⟩, ?_, ?_⟩
  · have hset : setAt (List.replicate k ((1 - conf) / ((k : ℝ) - 1))) (i : ℤ) conf =
        some ((List.replicate k ((1 - conf) / ((k : ℝ) - 1))).set i conf) := by
      unfold setAt
      rw [if_pos (by simp; omega)]
      simp
    have hone : centeredOne (indexDomain k true) (some ((i : ℝ), conf)) =
        some ⟨.categorical ((List.replicate k ((1 - conf) / ((k : ℝ) - 1))).set i conf),
          indexDomain k true⟩ := by
      unfold centeredOne
      have hcat : (indexDomain k true).isCategorical = true := rfl
      simp only [h0, h1, and_self, not_true_eq_false, if_false, hcat, if_true, indexDomain_card,
        Option.bind_eq_bind, Option.bind_some, Int.toNat_natCast, indices_eq, fdiv_eq hne,
        cast_self_nat, Int.floor_natCast]
      push_cast
      simp only [hset, Option.bind_some]
    simp [makeCentered, hone]
  · intro x hx
    rcases List.mem_or_eq_of_mem_set hx with hx | rfl
    · rw [List.eq_of_mem_replicate hx]
      exact div_nonneg (by linarith) (by linarith)
    · exact h0
  · rw [sum_set_replicate k i hi]
    have : ((k : ℝ) - 1) ≠ 0 := by intro h; linarith
    field_simp
    ring
  · rw [List.getElem?_set]
    simp [hi]
  · intro j hj hjk
    rw [List.getElem?_set, if_neg (fun h => hj h.symm), List.getElem?_replicate, if_pos hjk]

/-- **C74, mode.** The center is the most probable choice exactly if the confidence is at least
one over the number of choices. -/
theorem C74_mode_iff (k : ℕ) (hk : 2 ≤ k) (i : ℕ) (hi : i < k) (conf : ℝ) (h0 : 0 ≤ conf)
    (h1 : conf ≤ 1) (d : Domain) (hd : indices k true = some d) (w : List ℝ)
    (hw : makeCentered [d] [some ((i : ℝ), conf)] = some [⟨.categorical w, d⟩]) :
    (∀ x ∈ w, x ≤ conf) ↔ 1 / (k : ℝ) ≤ conf := by
  obtain ⟨w', hw', hl, -, hc, ho⟩ := C74_categorical k hk i hi conf h0 h1 d hd
  rw [hw] at hw'
  simp only [Option.some.injEq, List.cons.injEq, DistDom.mk.injEq, Dist.categorical.injEq,
    and_true] at hw'
  subst hw'
  have hk' : (2 : ℝ) ≤ k := by exact_mod_cast hk
  have hpos : (0 : ℝ) < (k : ℝ) - 1 := by linarith
  have key : (1 - conf) / ((k : ℝ) - 1) ≤ conf ↔ 1 / (k : ℝ) ≤ conf := by
    rw [div_le_iff₀ hpos, div_le_iff₀ (by linarith)]
    constructor <;> intro h <;> linarith
  rw [← key]
  constructor
  · intro h
    obtain ⟨j, hj, hji⟩ : ∃ j, j < k ∧ j ≠ i := by
      by_cases h : i = 0
      · exact ⟨1, by omega, by omega⟩
      · exact ⟨0, by omega, by omega⟩
    exact h _ (List.mem_of_getElem? (ho j hji hj))
  · intro h x hx
    obtain ⟨j, hj⟩ := List.mem_iff_getElem?.mp hx
    by_cases hji : j = i
    · subst hji
      rw [hc] at hj
      simp only [Option.some.injEq] at hj
      exact hj.ge
    · have hjk : j < k := by
        have := (List.getElem?_eq_some_iff.mp hj).1
        omega
      rw [ho j hji hjk] at hj
      simp only [Option.some.injEq] at hj
      rw [← hj]; exact h

/-- **C74 fails** with low confidence and two or three choices: every other choice is more probable
than the default. -/
theorem C74_low_confidence_fails (k : ℕ) (hk : k = 2 ∨ k = 3) (i : ℕ) (hi : i < k) (d : Domain)
    (hd : indices k true = some d) :
    ∃ w, makeCentered [d] [some ((i : ℝ), Confidence.low.score)] = some [⟨.categorical w, d⟩] ∧
      ∀ j, j ≠ i → j < k → ∃ a b, w[i]? = some a ∧ w[j]? = some b ∧ a < b := by
  obtain ⟨w, hw, -, -, hc, ho⟩ := C74_categorical k (by omega) i hi Confidence.low.score
    (by norm_num [Confidence.score]) (by norm_num [Confidence.score]) d hd
  refine ⟨w, hw, fun j hj hjk => ⟨_, _, hc, ho j hj hjk, ?_⟩⟩
  rcases hk with rfl | rfl <;> norm_num [Confidence.score]

/-- **C74, numerical domains.** For a float or integer domain and a value as center, the
distribution is a truncated normal distribution on the unit interval around the position of the
center, and the less confident, the wider. -/
theorem C74_numerical (d : Domain) (hd : Declared d) (hc : d.isCategorical = false) (center : ℝ)
    (hv : IsValue d center) (conf : ℝ) (h0 : 0 ≤ conf) (h1 : conf ≤ 1) :
    ∃ loc scale, makeCentered [d] [some (center, conf)] = some [⟨.truncNormal loc scale, unitFloat⟩] ∧
      d.toUnit center = some loc ∧ 0 ≤ loc ∧ loc ≤ 1 ∧ 0 < scale ∧
      (conf ≤ 1 - 1 / 1000000 → scale = 1 - conf) := by
  obtain ⟨loc, hl, hl0, hl1⟩ := toUnit_unit hd.shape hv
  refine ⟨loc, max (1 - conf) eps, ?_, hl, hl0, hl1, ?_, ?_⟩
  · have hone : centeredOne d (some (center, conf)) =
        some ⟨.truncNormal loc (max (1 - conf) eps), unitFloat⟩ := by
      unfold centeredOne
      simp [h0, h1, hc, hl]
    simp [makeCentered, hone]
  · exact lt_of_lt_of_le (by norm_num [eps]) (le_max_right _ _)
  · intro h
    apply max_eq_left
    unfold eps
    linarith

/-- The density of the truncated normal distribution decreases with the distance to the center;
so the center is the mode. -/
theorem C74_density (const loc scale x y : ℝ) (hs : 0 < scale) :
    truncNormalLogDensity const loc scale y < truncNormalLogDensity const loc scale x ↔
      |x - loc| < |y - loc| := by
  unfold truncNormalLogDensity
  rw [← sq_lt_sq]
  have h2 : (0 : ℝ) < scale ^ 2 := by positivity
  rw [div_pow, div_pow]
  have : (x - loc) ^ 2 < (y - loc) ^ 2 ↔
      (x - loc) ^ 2 / scale ^ 2 < (y - loc) ^ 2 / scale ^ 2 := by
    rw [div_lt_div_iff_of_pos_right h2]
  rw [this]
  constructor <;> intro h <;> linarith

/-- What a distribution can return for some draw. -/
def Dist.Possible : Dist → ℝ → Prop
  | .uniform, raw => 0 ≤ raw ∧ raw ≤ 1
  | .truncNormal _ _, _ => True
  | .categorical w, raw => ∃ j, j < w.length ∧ raw = (j : ℝ)

theorem draw_value {dom : Domain} (hdom : Declared dom) (center : Option (ℝ × ℝ))
    (hcat : dom.isCategorical = true → ∃ k, 2 ≤ k ∧ dom = indexDomain k true)
    (hcen : ∀ c conf, center = some (c, conf) → dom.isCategorical = true →
      ∃ i : ℕ, c = i ∧ (i : ℝ) ≤ dom.upper)
    {dd : DistDom} (h : centeredOne dom center = some dd) {raw : ℝ} (hr : dd.dist.Possible raw) :
    Declared dd.domain ∧ IsValue dd.domain (dd.dist.draw raw) ∧ dd.domain.logBounds = none := by
  unfold centeredOne at h
  cases center with
  | none =>
    simp only [Option.some.injEq] at h
    subst h
    exact ⟨declared_unitFloat, ⟨hr.1, hr.2, by simp [unitFloat]⟩, rfl⟩
  | some p =>
    obtain ⟨c, conf⟩ := p
    by_cases hconf : 0 ≤ conf ∧ conf ≤ 1
    · simp only [hconf, and_self, not_true_eq_false, if_false] at h
      by_cases hb : dom.isCategorical = true
      · obtain ⟨k, hk, rfl⟩ := hcat hb
        obtain ⟨i, rfl, hi⟩ := hcen c conf rfl hb
        have hik : i < k := by
          simp only [indexDomain] at hi
          have : (i : ℝ) < k := by linarith
          exact_mod_cast this
        obtain ⟨w, hw, hl, -⟩ := C74_categorical k hk i hik conf hconf.1 hconf.2 _ (indices_eq k true)
        have hone : centeredOne (indexDomain k true) (some ((i : ℝ), conf)) =
            some ⟨.categorical w, indexDomain k true⟩ := by
          unfold makeCentered at hw
          simp only [List.length_cons, List.length_nil, ne_eq, not_true_eq_false, if_false,
            List.zip_cons_cons, List.zip_nil_right, List.mapM_cons, List.mapM_nil,
            Option.pure_def, Option.bind_eq_bind, Option.bind_some] at hw
          cases hc : centeredOne (indexDomain k true) (some ((i : ℝ), conf)) with
          | none => rw [hc] at hw; simp at hw
          | some z => rw [hc] at hw; simpa using hw
        have h' : centeredOne (indexDomain k true) (some ((i : ℝ), conf)) = some dd := by
          rw [← h]
          unfold centeredOne
          simp only [hconf, and_self, not_true_eq_false, if_false]
        rw [hone] at h'
        simp only [Option.some.injEq] at h'
        subst h'
        obtain ⟨j, hj, rfl⟩ := hr
        rw [hl] at hj
        refine ⟨indexDomain_declared hk true, ⟨?_, ?_, fun _ => ⟨j, by simp [Dist.draw]⟩⟩, rfl⟩
        · simp only [Dist.draw, indexDomain]; positivity
        · simp only [Dist.draw, indexDomain]
          have : (j : ℝ) + 1 ≤ k := by exact_mod_cast hj
          linarith
      · simp only [hb] at h
        cases hu : dom.toUnit c with
        | none => simp [hu] at h
        | some loc =>
          simp only [hu, Option.bind_eq_bind, Option.bind_some, Bool.false_eq_true, if_false,
            Option.some.injEq] at h
          subst h
          refine ⟨declared_unitFloat, ⟨?_, ?_, by simp [unitFloat]⟩, rfl⟩
          · simp only [Dist.draw, unitFloat]
            exact le_min (le_max_right _ _) zero_le_one
          · simp only [Dist.draw, unitFloat]
            exact min_le_right _ _
    · simp only [hconf, not_false_eq_true, if_true] at h
      simp at h

/-- **C74, samples.** Whatever is drawn, a sample of a prior lies in the target domains: every
column is a value of its domain. -/
theorem C74_samples (domains : List Domain) (centers : List (Option (ℝ × ℝ)))
    (hdom : ∀ d ∈ domains, Declared d)
    (hcat : ∀ d ∈ domains, d.isCategorical = true → ∃ k, 2 ≤ k ∧ d = indexDomain k true)
    (hcen : ∀ p ∈ domains.zip centers, ∀ c conf, p.2 = some (c, conf) → p.1.isCategorical = true →
      ∃ i : ℕ, c = i ∧ (i : ℝ) ≤ p.1.upper)
    (prior : List DistDom) (hp : makeCentered domains centers = some prior)
    (raws : List ℝ) (hr : List.Forall₂ (fun dd raw => dd.dist.Possible raw) prior raws)
    (tgt : List Domain) (ht : tgt.length = domains.length) (htd : ∀ t ∈ tgt, Declared t) :
    ∃ row, priorRow prior raws tgt = some row ∧
      List.Forall₂ (fun v t => IsValue t v) row tgt := by
  unfold makeCentered at hp
  split at hp
  · simp at hp
  rename_i hlen
  have hF : List.Forall₂ (fun v d => (Declared d ∧ IsValue d v) ∧ d.logBounds = none)
      (List.zipWith (fun d r => d.dist.draw r) prior raws) (prior.map (·.domain)) ∧
      prior.length = (domains.zip centers).length := by
    have hz : ∀ p ∈ domains.zip centers, p.1 ∈ domains := by
      intro p hp'
      exact (List.of_mem_zip (a := p.1) (b := p.2) hp').1
    clear ht htd hlen
    generalize domains.zip centers = l at hp hz hcen
    induction l generalizing prior raws with
    | nil =>
      simp only [List.mapM_nil, Option.pure_def, Option.some.injEq] at hp
      subst hp
      cases hr
      exact ⟨List.Forall₂.nil, rfl⟩
    | cons p l ih =>
      rw [List.mapM_cons] at hp
      cases h1 : centeredOne p.1 p.2 with
      | none => simp [h1] at hp
      | some dd =>
        cases h2 : l.mapM (fun p => centeredOne p.1 p.2) with
        | none => simp [h1, h2] at hp
        | some rest =>
          simp only [h1, h2, Option.bind_eq_bind, Option.bind_some, Option.pure_def,
            Option.some.injEq] at hp
          subst hp
          cases hr with
          | @cons _ raw _ raws' hraw hrest =>
            obtain ⟨i1, i2⟩ := ih rest raws' hrest h2
              (fun q hq => hz q (by simp [hq])) (fun q hq => hcen q (by simp [hq]))
            have hmem := hz p (by simp)
            obtain ⟨d1, d2, d3⟩ := draw_value (hdom _ hmem) p.2 (hcat _ hmem)
              (hcen p (by simp)) h1 hraw
            refine ⟨?_, by simp [i2]⟩
            simp only [List.zipWith_cons_cons, List.map_cons]
            exact List.Forall₂.cons ⟨⟨d1, d2⟩, d3⟩ i1
  obtain ⟨hF, hl⟩ := hF
  have hpl : prior.length = domains.length := by
    rw [hl, List.length_zip]
    simp only [ne_eq, not_not] at hlen
    omega
  obtain ⟨row, h1, h2⟩ := C29_translate_in_bounds_partial _ (prior.map (·.domain)) tgt
    (hF.imp fun _ _ h => h.1) (by
      rw [hF.length_eq, List.length_map, hpl, ht]) htd (by
      intro p hp hlift
      have hmem := (List.of_mem_zip (a := p.1) (b := p.2) hp).2
      have hnone : p.2.logBounds = none := by
        obtain ⟨x, _, hx⟩ : ∃ x ∈ (List.zipWith (fun d r => d.dist.draw r) prior raws), 
            ((Declared p.2 ∧ IsValue p.2 x) ∧ p.2.logBounds = none) := by
          generalize (List.zipWith (fun (d : DistDom) r => d.dist.draw r) prior raws) = xs at hF
          generalize (prior.map (·.domain)) = ds at hF hmem
          induction hF with
          | nil => simp at hmem
          | @cons a b _ _ hab _ ih =>
            rcases List.mem_cons.mp hmem with h | h
            · exact ⟨a, by simp, h ▸ hab⟩
            · obtain ⟨x, hx, hh⟩ := ih h
              exact ⟨x, by simp [hx], hh⟩
        exact hx.2
      unfold LogLift at hlift
      simp [hnone] at hlift)
  exact ⟨row, h1, h2⟩

/-- **C74 fails** for the categorical parameters of a search space: their domain is not marked as
categorical, so the documented weights are not used; the distribution is a truncated normal
distribution over the positions of the choices in the list, and a choice next to the default is
more probable than one further away. -/
theorem C74_categorical_parameter_fails (name : String) (choices : List Val) (i : ℕ)
    (hi : i < choices.length) (h2 : 2 ≤ choices.length) (conf : Confidence) :
    ∃ loc scale, fromParameters [(name, .categorical choices (some i) conf)] =
        some [⟨.truncNormal loc scale, unitFloat⟩] ∧ 0 < scale ∧
      ∀ j k (const : ℝ), j < choices.length → k < choices.length →
        |(j : ℤ) - i| < |(k : ℤ) - i| → ∃ u v,
          (indexDomain choices.length true).toUnit j = some u ∧
          (indexDomain choices.length true).toUnit k = some v ∧
          truncNormalLogDensity const loc scale v < truncNormalLogDensity const loc scale u := by
  have hk' : (2 : ℝ) ≤ choices.length := by exact_mod_cast h2
  have hpos : (0 : ℝ) < (choices.length : ℝ) - 1 := by linarith
  have hconf : 0 ≤ conf.score ∧ conf.score ≤ 1 := by cases conf <;> norm_num [Confidence.score]
  have hval : IsValue (indexDomain choices.length false) (i : ℝ) := by
    refine ⟨by simp [indexDomain], ?_, fun _ => ⟨i, by simp⟩⟩
    simp only [indexDomain]
    have : (i : ℝ) + 1 ≤ choices.length := by exact_mod_cast hi
    linarith
  obtain ⟨loc, scale, hm, hloc, -, -, hs, -⟩ := C74_numerical (indexDomain choices.length false)
    (indexDomain_declared h2 false) rfl (i : ℝ) hval conf.score hconf.1 hconf.2
  rw [indexDomain_toUnit h2 false hi] at hloc
  simp only [Option.some.injEq] at hloc
  refine ⟨loc, scale, ?_, hs, ?_⟩
  · unfold fromParameters
    simp only [List.mapM_cons, List.mapM_nil, PriorHp.domain, indices_eq, Option.bind_eq_bind,
      Option.bind_some, Option.pure_def, List.map_cons, List.map_nil, PriorHp.center,
      Option.map_some]
    exact hm
  · intro j k const hj hk hjk
    refine ⟨_, _, indexDomain_toUnit h2 true hj, indexDomain_toUnit h2 true hk, ?_⟩
    rw [C74_density _ _ _ _ _ hs, ← hloc, ← sub_div, ← sub_div, abs_div, abs_div,
      div_lt_div_iff_of_pos_right (abs_pos.mpr hpos.ne')]
    exact_mod_cast hjk

/-- The hypotheses of `C74_samples` can be met: a float and a categorical column. -/
example : ∃ prior, makeCentered [unitFloat, indexDomain 3 true] [none, some ((1 : ℕ), 1 / 2)] =
    some prior ∧ List.Forall₂ (fun (dd : DistDom) raw => dd.dist.Possible raw) prior [1 / 3, (2 : ℕ)] := by
  obtain ⟨w, hw, hl, -⟩ := C74_categorical 3 (by norm_num) 1 (by norm_num) (1 / 2) (by norm_num)
    (by norm_num) _ (indices_eq 3 true)
  have hone : centeredOne (indexDomain 3 true) (some (((1 : ℕ) : ℝ), 1 / 2)) =
      some ⟨.categorical w, indexDomain 3 true⟩ := by
    unfold makeCentered at hw
    simp only [List.length_cons, List.length_nil, ne_eq, not_true_eq_false, if_false,
      List.zip_cons_cons, List.zip_nil_right, List.mapM_cons, List.mapM_nil,
      Option.pure_def, Option.bind_eq_bind, Option.bind_some] at hw
    cases hc : centeredOne (indexDomain 3 true) (some (((1 : ℕ) : ℝ), 1 / 2)) with
    | none => rw [hc] at hw; simp at hw
    | some z => rw [hc] at hw; simpa using hw
  refine ⟨[⟨.uniform, unitFloat⟩, ⟨.categorical w, indexDomain 3 true⟩], ?_, ?_⟩
  · have hnone : centeredOne unitFloat none = some ⟨.uniform, unitFloat⟩ := rfl
    simp only [makeCentered, List.length_cons, List.length_nil, ne_eq, not_true_eq_false, if_false,
      List.zip_cons_cons, List.zip_nil_right, List.mapM_cons, List.mapM_nil, hone, hnone,
      Option.pure_def, Option.bind_eq_bind, Option.bind_some]
  · refine List.Forall₂.cons ⟨by norm_num, by norm_num⟩ (List.Forall₂.cons ⟨2, ?_, rfl⟩ List.Forall₂.nil)
    rw [hl]; norm_num

end Verif.Sampling
