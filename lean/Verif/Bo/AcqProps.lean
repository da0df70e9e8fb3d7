import Verif.Bo.Model
import Mathlib.Analysis.Complex.ExponentialBounds
import Mathlib.Tactic.Linarith
import Mathlib.Tactic.FieldSimp
import Mathlib.Tactic.Positivity

/-!
# C77, C80, C81: weights of the acquisition function and its optimization
-/

namespace Verif.Bo

open Verif.Space

/-! ## C77: the prior -/

/-- **C77, exponent.** The exponent of the prior is 1 right after the initial design and strictly
decreases with every further configuration, but stays positive. -/
theorem C77_exponent (ndims initial : ℕ) (hd : 0 < ndims) :
    piboExpTerm initial ndims initial = 1 ∧
    (∀ n m, n < m → piboExpTerm m ndims initial < piboExpTerm n ndims initial) ∧
    ∀ n, 0 < piboExpTerm n ndims initial := by
  have hd' : (0 : ℝ) < ndims := by exact_mod_cast hd
  refine ⟨by simp [piboExpTerm], ?_, fun n => Real.exp_pos _⟩
  intro n m h
  have h' : (n : ℝ) < m := by exact_mod_cast h
  unfold piboExpTerm
  rw [Real.exp_lt_exp]
  apply div_lt_div_of_pos_right _ hd'
  linarith

theorem exp_neg_ten : Real.exp (-10) < 1 / 10000 := by
  rw [Real.exp_neg, ← one_div]
  apply one_div_lt_one_div_of_lt (by norm_num)
  have h : Real.exp 10 = Real.exp 1 ^ 10 := by
    rw [← Real.exp_nat_mul]; norm_num
  rw [h]
  have h1 := Real.exp_one_gt_d9
  calc (10000 : ℝ) < 2.7182818283 ^ 10 := by norm_num
    _ ≤ _ := pow_le_pow_left₀ (by norm_num) h1.le _

theorem exp_neg_nine : 1 / 10000 ≤ Real.exp (-9) := by
  rw [Real.exp_neg, ← one_div]
  apply one_div_le_one_div_of_le (Real.exp_pos _)
  have h : Real.exp 9 = Real.exp 1 ^ 9 := by
    rw [← Real.exp_nat_mul]; norm_num
  rw [h]
  have h1 := Real.exp_one_lt_d9
  calc Real.exp 1 ^ 9 ≤ 2.7182818286 ^ 9 := pow_le_pow_left₀ (Real.exp_pos _).le h1.le _
    _ ≤ (10000 : ℝ) := by norm_num

/-- **C77, no prior later.** From ten configurations per dimension after the initial design on, the
prior has no influence. -/
theorem C77_forgotten (ndims initial : ℕ) (hd : 0 < ndims) (n : ℕ)
    (hn : initial + 10 * ndims ≤ n) (hasPrior : Bool) (acq logp : ℝ) :
    boAcquisition hasPrior n ndims initial acq logp = acq := by
  have hd' : (0 : ℝ) < ndims := by exact_mod_cast hd
  have hn' : (initial : ℝ) + 10 * ndims ≤ n := by exact_mod_cast hn
  have : piboExpTerm n ndims initial < 1 / 10000 := by
    apply lt_of_le_of_lt _ exp_neg_ten
    unfold piboExpTerm
    rw [Real.exp_le_exp, div_le_iff₀ hd']
    linarith
  unfold boAcquisition priorRound
  cases hasPrior with
  | false => rfl
  | true => simp only [if_true, if_pos this]

/-- Without a prior the acquisition function is never changed. -/
theorem C77_no_prior (n ndims initial : ℕ) (acq logp : ℝ) :
    boAcquisition false n ndims initial acq logp = acq := rfl

/-- **C77, weight.** An acquisition function that is not on a log scale is multiplied by the
density of the prior to the power of the exponent. -/
theorem C77_weight_plain_partial (acq p e : ℝ) (hp : 0 < p) :
    piboWeight false acq (Real.log p) e = acq * p ^ e := by
  unfold piboWeight
  simp only [Bool.false_eq_true, if_false, Real.exp_log hp]
  rfl

theorem used_early {ndims initial n : ℕ} (hd : 0 < ndims) (hn : n ≤ initial + 9 * ndims) :
    priorRound true n ndims initial = some (piboExpTerm n ndims initial) := by
  have hd' : (0 : ℝ) < ndims := by exact_mod_cast hd
  have hn' : (n : ℝ) ≤ initial + 9 * ndims := by exact_mod_cast hn
  have : ¬ piboExpTerm n ndims initial < 1 / 10000 := by
    rw [not_lt]
    apply le_trans exp_neg_nine
    unfold piboExpTerm
    rw [Real.exp_le_exp, le_div_iff₀ hd']
    linarith
  unfold priorRound
  simp only [if_true, if_neg this]

/-- **C77 fails** for the acquisition function the optimizer uses, which is on a log scale: the
exponent is added instead of multiplied, so that the prior does not fade. While the prior is used,
whichever of two candidates is preferred does not depend on how many configurations have been
sampled. -/
theorem C77_prior_does_not_fade_fails (ndims initial : ℕ) (hd : 0 < ndims) (n m : ℕ)
    (hn : n ≤ initial + 9 * ndims) (hm : m ≤ initial + 9 * ndims) (a₁ l₁ a₂ l₂ : ℝ) :
    (boAcquisition true n ndims initial a₁ l₁ < boAcquisition true n ndims initial a₂ l₂ ↔
      a₁ + l₁ < a₂ + l₂) ∧
    (boAcquisition true n ndims initial a₁ l₁ < boAcquisition true n ndims initial a₂ l₂ ↔
      boAcquisition true m ndims initial a₁ l₁ < boAcquisition true m ndims initial a₂ l₂) := by
  unfold boAcquisition
  simp only [used_early hd hn, used_early hd hm, piboWeight, if_true]
  constructor <;> constructor <;> intro h <;> linarith

/-- **C77 fails**: the two scales do not agree. After two configurations per dimension the weighted
acquisition function prefers one candidate, its logarithm the other. -/
theorem C77_scales_disagree_fails (ndims initial : ℕ) (hd : 0 < ndims) :
    let e := piboExpTerm (initial + 2 * ndims) ndims initial
    piboWeight false (Real.exp 0) 0 e < piboWeight false (Real.exp 1) (-2) e ∧
    piboWeight true 1 (-2) e < piboWeight true 0 0 e := by
  have hd' : (0 : ℝ) < ndims := by exact_mod_cast hd
  have he : piboExpTerm (initial + 2 * ndims) ndims initial = Real.exp (-2) := by
    unfold piboExpTerm
    congr 1
    push_cast
    field_simp
    ring
  simp only [he]
  have h2 : Real.exp (-2) < 1 / 2 := by
    rw [Real.exp_neg, ← one_div]
    apply one_div_lt_one_div_of_lt (by norm_num)
    have : (2 : ℝ) + 1 ≤ Real.exp 2 := Real.add_one_le_exp 2
    linarith
  unfold piboWeight
  simp only [Bool.false_eq_true, if_false, if_true, Real.exp_zero]
  constructor
  · have h1 : Real.rpow 1 (Real.exp (-2)) = 1 := Real.one_rpow _
    have h3 : Real.rpow (Real.exp (-2)) (Real.exp (-2)) = Real.exp (-2 * Real.exp (-2)) :=
      (Real.exp_mul _ _).symm
    rw [h1, h3, ← Real.exp_add, mul_one, Real.one_lt_exp_iff]
    linarith
  · linarith

/-- The hypotheses of `C77_prior_does_not_fade_fails` hold right after the initial design and at
the end of the phase with the prior. -/
example : (0 : ℕ) < 3 ∧ 5 ≤ 5 + 9 * 3 ∧ 32 ≤ 5 + 9 * 3 ∧ 5 + 10 * 3 ≤ 35 := by decide

/-! ## C80: costs -/

/-- **C80, cheaper is preferred.** Of two candidates with the same acquisition value (not zero on
the plain scale) the cheaper one has the larger cooled value, as long as there is budget left. -/
theorem C80_cheaper_preferred (logAcq : Bool) (acq c₁ c₂ alpha : ℝ) (ha : 0 < alpha)
    (h1 : 0 < c₁) (h2 : c₁ < c₂) (hacq : logAcq = false → acq ≠ 0) :
    costCooling logAcq acq c₂ alpha < costCooling logAcq acq c₁ alpha := by
  unfold costCooling
  have hw : Real.rpow c₁ alpha < Real.rpow c₂ alpha := Real.rpow_lt_rpow h1.le h2 ha
  have hp : 0 < Real.rpow c₁ alpha := Real.rpow_pos_of_pos h1 _
  cases logAcq with
  | true =>
    simp only [if_true]
    have := Real.log_lt_log h1 h2
    nlinarith
  | false =>
    simp only [Bool.false_eq_true, if_false]
    split_ifs with h
    · exact div_lt_div_of_pos_left h hp hw
    · have : acq < 0 := lt_of_le_of_ne (not_lt.mp h) (hacq rfl)
      nlinarith

/-- **C80, better is preferred.** Of two candidates with the same cost the one with the larger
acquisition value has the larger cooled value. -/
theorem C80_better_preferred (logAcq : Bool) (a₁ a₂ c alpha : ℝ) (hc : 0 < c) (h : a₁ < a₂) :
    costCooling logAcq a₁ c alpha < costCooling logAcq a₂ c alpha := by
  unfold costCooling
  have hp : 0 < Real.rpow c alpha := Real.rpow_pos_of_pos hc _
  cases logAcq with
  | true => simp only [if_true]; linarith
  | false =>
    simp only [Bool.false_eq_true, if_false]
    split_ifs with h1 h2 h2
    · exact div_lt_div_of_pos_right h hp
    · linarith
    · have h3 : a₁ * Real.rpow c alpha ≤ 0 := mul_nonpos_of_nonpos_of_nonneg (not_lt.mp h1) hp.le
      have h4 : 0 < a₂ / Real.rpow c alpha := div_pos h2 hp
      linarith
    · exact mul_lt_mul_of_pos_right h hp

/-- **C80, no budget left.** When the whole budget is used, costs have no influence. -/
theorem C80_no_effect_at_end (logAcq : Bool) (acq c : ℝ) :
    ∃ alpha, coolingAlpha 1 = some alpha ∧ costCooling logAcq acq c alpha = acq := by
  refine ⟨0, by simp [coolingAlpha], ?_⟩
  unfold costCooling
  cases logAcq with
  | true => simp
  | false =>
    simp

/-- **C80, scales.** For positive acquisition values both scales agree. -/
theorem C80_scales_agree (acq c alpha : ℝ) (hacq : 0 < acq) (hc : 0 < c) :
    Real.log (costCooling false acq c alpha) = costCooling true (Real.log acq) c alpha := by
  unfold costCooling
  have hp : 0 < Real.rpow c alpha := Real.rpow_pos_of_pos hc _
  simp only [Bool.false_eq_true, if_false, if_true, gt_iff_lt, hacq]
  rw [Real.log_div hacq.ne' hp.ne']
  congr 1
  exact Real.log_rpow hc alpha

/-- **C80, budget.** If every evaluated configuration has a cost and the used budget is not more
than the positive budget, the exponent is the unused share of the budget, between 0 and 1, and the
cost model is trained on all of them. -/
theorem C80_unused_share_partial (used maxCost : ℝ) (h0 : 0 ≤ used) (h1 : used ≤ maxCost)
    (hm : 0 < maxCost) (x : List (List ℝ)) (costs : List ℝ) :
    ∃ alpha, costRound (some (used, some maxCost)) x (costs.map some) =
        some (alpha, x, costs.map some) ∧
      alpha = (maxCost - used) / maxCost ∧ 0 ≤ alpha ∧ alpha ≤ 1 := by
  have hdiv : 0 ≤ used / maxCost ∧ used / maxCost ≤ 1 :=
    ⟨div_nonneg h0 hm.le, (div_le_one hm).mpr h1⟩
  refine ⟨1 - used / maxCost, ?_, ?_, ?_, ?_⟩
  · unfold costRound
    simp [fdiv, hm.ne', coolingAlpha, hdiv]
  · field_simp
  · linarith [hdiv.2]
  · linarith [hdiv.1]

/-- **C80 fails** for missing costs: a single trial without a cost makes the round fail, although
others have reported theirs. -/
theorem C80_missing_cost_fails (budget : Option (ℝ × Option ℝ)) (x : List (List ℝ))
    (costs : List (Option ℝ)) (h : none ∈ costs) : costRound budget x costs = none := by
  have hany : costs.any (·.isNone) = true := List.any_eq_true.mpr ⟨none, h, rfl⟩
  unfold costRound
  match budget with
  | none => rfl
  | some (_, none) => rfl
  | some (used, some m) =>
    cases hf : fdiv used m with
    | none => simp [hf]
    | some p => simp [hf, hany]

/-- **C80 fails** when more than the budget has been used, which other workers can cause after this
worker checked the budget, and for a budget of zero. -/
theorem C80_overspent_fails (used maxCost : ℝ) (h : maxCost < used ∧ 0 < maxCost ∨ maxCost = 0)
    (x : List (List ℝ)) (costs : List (Option ℝ)) :
    costRound (some (used, some maxCost)) x costs = none := by
  unfold costRound
  rcases h with ⟨h1, h2⟩ | rfl
  · have : ¬ used / maxCost ≤ 1 := by
      rw [not_le, lt_div_iff₀ h2]; linarith
    simp [fdiv, h2.ne', coolingAlpha, this]
  · simp [fdiv]

example : none ∈ [some (3 : ℝ), none, some 1] := by simp

/-! ## C81: optimizing the acquisition function -/

theorem mem_product {α : Type*} {ls : List (List α)} {c : List α} :
    c ∈ product ls ↔ List.Forall₂ (fun a l => a ∈ l) c ls := by
  induction ls generalizing c with
  | nil => simp [product]
  | cons l ls ih =>
    simp only [product, List.mem_flatMap, List.mem_map, List.forall₂_cons_right_iff]
    constructor
    · rintro ⟨a, ha, c', hc', rfl⟩
      exact ⟨a, c', ha, ih.mp hc', rfl⟩
    · rintro ⟨a, c', ha, hc', rfl⟩
      exact ⟨a, ha, c', ih.mpr hc', rfl⟩

theorem product_nodup {α : Type*} {ls : List (List α)} (h : ∀ l ∈ ls, l.Nodup) :
    (product ls).Nodup := by
  induction ls with
  | nil => simp [product]
  | cons l ls ih =>
    unfold product
    rw [List.nodup_flatMap]
    refine ⟨?_, ?_⟩
    · intro a _
      exact (ih fun l hl => h l (by simp [hl])).map (fun x y hxy => by simpa using hxy)
    · apply (h l (by simp)).imp
      intro a b hab
      rw [Function.onFun, List.disjoint_left]
      rintro x hx hy
      obtain ⟨c, _, rfl⟩ := List.mem_map.mp hx
      obtain ⟨d, _, hd⟩ := List.mem_map.mp hy
      simp only [List.cons.injEq] at hd
      exact hab hd.1.symm

theorem product_length {α : Type*} (ls : List (List α)) :
    (product ls).length = (ls.map List.length).prod := by
  induction ls with
  | nil => rfl
  | cons l ls ih => simp [product, List.length_flatMap, ih]

theorem fixedCats_eq (cats : List (ℕ × List ℝ)) :
    fixedCats cats = (product (cats.map (·.2))).map fun combo => (cats.map (·.1)).zip combo := by
  unfold fixedCats
  split
  · rename_i col vals
    simp only [List.map_cons, List.map_nil, product, List.map_flatMap]
    induction vals with
    | nil => rfl
    | cons v vs ih => simpa using ih
  · rfl

theorem mem_catColumns {cols : List Col} {i : ℕ} {c : Col} {k : ℕ} :
    (i, c, k) ∈ catColumns cols ↔ cols[i]? = some c ∧ c.choices = some k := by
  unfold catColumns
  simp only [List.mem_filterMap, Option.map_eq_some_iff, Prod.mk.injEq]
  constructor
  · rintro ⟨⟨c', i'⟩, hm, k', hk, rfl, rfl, rfl⟩
    exact ⟨List.mem_zipIdx_iff_getElem?.mp hm, hk⟩
  · rintro ⟨h1, h2⟩
    exact ⟨(c, i), List.mem_zipIdx_iff_getElem?.mpr h1, k, h2, rfl, rfl, rfl⟩

theorem foldl_mul_eq (l : List ℕ) (a : ℕ) : l.foldl (· * ·) a = a * l.prod := by
  induction l generalizing a with
  | nil => simp
  | cons x xs ih => rw [List.foldl_cons, ih, List.prod_cons, mul_assoc]

/-- The categorical columns occur in their order, each with its position. -/
theorem catColumns_positions (cols : List Col) :
    ((catColumns cols).map (·.1)).Pairwise (· < ·) := by
  unfold catColumns
  have h : cols.zipIdx.Pairwise (fun a b => a.2 < b.2) := by
    have := List.pairwise_lt_range' (s := 0) (n := cols.length)
    rw [← List.zipIdx_map_snd] at this
    exact List.pairwise_map.mp this
  rw [List.pairwise_map]
  apply List.Pairwise.filterMap _ _ h
  intro a b hab x hx y hy
  simp only [Option.map_eq_some_iff] at hx hy
  obtain ⟨k, -, rfl⟩ := hx
  obtain ⟨k', -, rfl⟩ := hy
  exact hab

theorem catColumns_choices (cols : List Col) :
    (catColumns cols).map (·.2.2) = cols.filterMap (·.choices) := by
  unfold catColumns
  rw [List.map_filterMap]
  have : ∀ (cols : List Col) (n : ℕ), (cols.zipIdx n).filterMap (fun x =>
      Option.map (fun x => x.2.2) (Option.map (fun k => (x.2, x.1, k)) x.1.choices)) =
      cols.filterMap (·.choices) := by
    intro cols
    induction cols with
    | nil => intro n; rfl
    | cons c cs ih =>
      intro n
      rw [List.zipIdx_cons, List.filterMap_cons, List.filterMap_cons, ih]
      cases c.choices <;> rfl
  exact this cols 0

/-- **C81.** With categorical columns the acquisition function is optimized once for every
combination of choices: the list of fixed values has, without repetition, exactly the assignments
that give every categorical column one of its choices and no other column a value. -/
theorem C81_every_combination (cols : List Col) (restarts : ℕ) (start : Option ℕ) (maxCombos r : ℕ)
    (raw : Option ℕ) (fixed : List (List (ℕ × ℝ)))
    (h : optimizeAcq cols restarts start maxCombos = some (.mixed r raw fixed)) :
    fixed.Nodup ∧
    (∀ f : List (ℕ × ℝ), f ∈ fixed ↔
      (f.map (·.1)).Pairwise (· < ·) ∧
      (∀ i, i ∈ f.map (·.1) ↔ ∃ c k, cols[i]? = some c ∧ c.choices = some k) ∧
      ∀ i x, (i, x) ∈ f → ∃ c k j, cols[i]? = some c ∧ c.choices = some k ∧ j < k ∧ x = (j : ℕ)) ∧
    fixed.length = ((cols.filterMap (·.choices)).prod) ∧ fixed.length ≤ maxCombos := by
  unfold optimizeAcq at h
  simp only at h
  split_ifs at h with h1 h2 h3
  swap
  · simp at h
  simp only [Option.some.injEq, AcqCall.mixed.injEq] at h
  obtain ⟨-, -, rfl⟩ := h
  rw [fixedCats_eq]
  set cats := catColumns cols with hcats
  have e1 : (cats.map fun c => (c.1, (List.range c.2.2).map fun (i : ℕ) => (i : ℝ))).map (·.1) =
      cats.map (·.1) := by simp [Function.comp_def]
  have e2 : (cats.map fun c => (c.1, (List.range c.2.2).map fun (i : ℕ) => (i : ℝ))).map (·.2) =
      cats.map fun c => (List.range c.2.2).map fun (i : ℕ) => (i : ℝ) := by simp [Function.comp_def]
  rw [e1, e2]
  have hlen : ∀ c ∈ product (cats.map fun c => (List.range c.2.2).map fun (i : ℕ) => (i : ℝ)),
      c.length = cats.length := by
    intro c hc
    simpa using (mem_product.mp hc).length_eq
  have hpos := catColumns_positions cols
  have hchoices : cats.map (·.2.2) = cols.filterMap (·.choices) := catColumns_choices cols
  have hcount : (product (cats.map fun c => (List.range c.2.2).map fun (i : ℕ) => (i : ℝ))).length =
      (cols.filterMap (·.choices)).prod := by
    rw [product_length, List.map_map, ← hchoices]
    simp [Function.comp_def]
  refine ⟨?_, ?_, ?_, ?_⟩
  · apply List.Nodup.map_on
    · intro x hx y hy hxy
      have hx' := congrArg (List.map Prod.snd) hxy
      rw [List.map_snd_zip (by rw [hlen x hx, List.length_map]),
        List.map_snd_zip (by rw [hlen y hy, List.length_map])] at hx'
      exact hx'
    · apply product_nodup
      intro l hl
      obtain ⟨c, _, rfl⟩ := List.mem_map.mp hl
      exact List.nodup_range.map (fun a b hab => by exact_mod_cast hab)
  · intro f
    rw [List.mem_map]
    constructor
    · rintro ⟨c, hc, rfl⟩
      have hl := hlen c hc
      have hfst : (((cats.map (·.1)).zip c).map (·.1)) = cats.map (·.1) :=
        List.map_fst_zip (by rw [hl, List.length_map])
      refine ⟨?_, ?_, ?_⟩
      · rw [hfst]; exact hpos
      · intro i
        rw [hfst, List.mem_map]
        constructor
        · rintro ⟨⟨i, c, k⟩, hm, rfl⟩
          obtain ⟨p, q⟩ := mem_catColumns.mp hm
          exact ⟨c, k, p, q⟩
        · rintro ⟨c, k, p, q⟩
          exact ⟨_, mem_catColumns.mpr ⟨p, q⟩, rfl⟩
      · intro i x hix
        obtain ⟨n, hn, hnx⟩ := List.mem_iff_getElem.mp hix
        rw [List.getElem_zip, List.getElem_map] at hnx
        have hn' : n < cats.length := by simp at hn; omega
        have hF := (List.forall₂_iff_get.mp (mem_product.mp hc)).2 n (by omega) (by simpa using hn')
        simp only [List.get_eq_getElem, List.getElem_map, List.mem_map, List.mem_range] at hF
        obtain ⟨j, hj, hjx⟩ := hF
        have hm := mem_catColumns.mp (show (cats[n].1, cats[n].2.1, cats[n].2.2) ∈ catColumns cols from
          List.getElem_mem hn')
        simp only [Prod.mk.injEq] at hnx
        refine ⟨cats[n].2.1, cats[n].2.2, j, ?_, hm.2, hj, ?_⟩
        · rw [← hnx.1]; exact hm.1
        · rw [← hnx.2, ← hjx]
    · rintro ⟨f1, f2, f3⟩
      have hfst : f.map (·.1) = cats.map (·.1) := by
        apply List.Perm.eq_of_pairwise (le := (· < ·)) (fun a b _ _ h1 h2 => by omega) f1 hpos
        apply (List.perm_ext_iff_of_nodup (f1.imp fun h => h.ne) (hpos.imp fun h => h.ne)).mpr
        intro i
        rw [f2, List.mem_map]
        constructor
        · rintro ⟨c, k, p, q⟩
          exact ⟨_, mem_catColumns.mpr ⟨p, q⟩, rfl⟩
        · rintro ⟨⟨i, c, k⟩, hm, rfl⟩
          obtain ⟨p, q⟩ := mem_catColumns.mp hm
          exact ⟨c, k, p, q⟩
      have hfl : f.length = cats.length := by
        have := congrArg List.length hfst
        simpa using this
      refine ⟨f.map (·.2), ?_, ?_⟩
      · rw [mem_product, List.forall₂_iff_get]
        refine ⟨by simpa using hfl, ?_⟩
        intro n p q
        simp only [List.get_eq_getElem, List.getElem_map, List.mem_map, List.mem_range]
        have hn : n < f.length := by simpa using p
        obtain ⟨c, k, j, hc, hk, hj, hx⟩ := f3 f[n].1 f[n].2 (List.getElem_mem hn)
        have hm := mem_catColumns.mp (show (cats[n].1, cats[n].2.1, cats[n].2.2) ∈ catColumns cols from
          List.getElem_mem (hfl ▸ hn))
        have hfn : f[n].1 = (cats[n]'(by omega)).1 := by
          have : (f.map (·.1))[n]'(by simpa using hn) = (cats.map (·.1))[n]'(by simp; omega) := by
            simp only [hfst]
          simpa using this
        rw [← hfn, hc] at hm
        have hcc : c = (cats[n]'(by omega)).2.1 := by simpa using hm.1
        rw [← hcc, hk] at hm
        refine ⟨j, ?_, hx.symm⟩
        have := hm.2
        simp only [Option.some.injEq] at this
        omega
      · rw [← hfst]
        exact (List.zip_of_prod rfl rfl).symm
  · rw [List.length_map, hcount]
  · rw [List.length_map, hcount, ← hchoices]
    rw [foldl_mul_eq, one_mul] at h2
    omega

/-- **C81, too many combinations** are rejected instead of being optimized. -/
theorem C81_too_many_rejected (cols : List Col) (restarts : ℕ) (start : Option ℕ) (maxCombos : ℕ)
    (hcat : ∃ c ∈ cols, c.choices.isSome ∧ c.name ≠ "")
    (h : maxCombos < (cols.filterMap (·.choices)).prod) :
    optimizeAcq cols restarts start maxCombos = none := by
  have hchoices := catColumns_choices cols
  have hany : (catColumns cols).any (fun c => c.2.1.name ≠ "") = true := by
    obtain ⟨c, hc, hs, hne⟩ := hcat
    obtain ⟨i, hi⟩ := List.mem_iff_getElem?.mp hc
    obtain ⟨k, hk⟩ := Option.isSome_iff_exists.mp hs
    exact List.any_eq_true.mpr ⟨(i, c, k), mem_catColumns.mpr ⟨hi, hk⟩, by simpa using hne⟩
  unfold optimizeAcq
  simp only [hany, not_true_eq_false, if_false, hchoices, foldl_mul_eq, one_mul, gt_iff_lt, h,
    if_true]

/-- **C81.** Without categorical columns there is one optimization, over all columns, with the
number of restarts asked for. -/
theorem C81_continuous (cols : List Col) (restarts : ℕ) (start : Option ℕ) (maxCombos : ℕ)
    (h : ∀ c ∈ cols, c.choices = none) :
    optimizeAcq cols restarts start maxCombos = some (.continuous restarts (start.getD 256)) := by
  have hno : catColumns cols = [] := by
    rw [List.eq_nil_iff_forall_not_mem]
    rintro ⟨i, c, k⟩ hm
    obtain ⟨p, q⟩ := mem_catColumns.mp hm
    rw [h c (List.mem_of_getElem? p)] at q
    simp at q
  unfold optimizeAcq
  simp [hno]

/-- **C81 fails** for the restarts: with more combinations than restarts (21 to 30 of them with the
default arguments) the optimizer gets zero restarts; and with categorical columns it never gets
more than two, nor a number of start points unless the caller gives one. -/
theorem C81_no_restarts_fails (cols : List Col) (restarts : ℕ) (start : Option ℕ) (maxCombos r : ℕ)
    (raw : Option ℕ) (fixed : List (List (ℕ × ℝ)))
    (h : optimizeAcq cols restarts start maxCombos = some (.mixed r raw fixed)) :
    (r = 0 ↔ restarts < (cols.filterMap (·.choices)).prod) ∧ r ≤ 2 ∧ raw = start := by
  have hc := (C81_every_combination cols restarts start maxCombos r raw fixed h).2.2.1
  have hchoices := catColumns_choices cols
  unfold optimizeAcq at h
  simp only at h
  split_ifs at h with h1 h2 h3
  swap
  · simp at h
  simp only [Option.some.injEq, AcqCall.mixed.injEq] at h
  obtain ⟨hr, hraw, -⟩ := h
  rw [hchoices, foldl_mul_eq, one_mul] at hr h3
  refine ⟨?_, ?_, hraw.symm⟩
  · rw [← hr]
    constructor
    · intro h0
      have : restarts / (cols.filterMap (·.choices)).prod = 0 := by
        rcases Nat.le_total (restarts / (cols.filterMap (·.choices)).prod) 2 with h | h
        · rwa [show Nat.min _ 2 = min _ 2 from rfl, min_eq_left h] at h0
        · rw [show Nat.min _ 2 = min _ 2 from rfl, min_eq_right h] at h0
          omega
      rcases Nat.div_eq_zero_iff.mp this with h | h
      · exact absurd h h3
      · exact h
    · intro hlt
      rw [Nat.div_eq_of_lt hlt]
      rfl
  · rw [← hr]
    exact Nat.min_le_right _ _

/-- **C81, restarts.** With at most as many combinations as restarts, every optimization gets at
least one restart. -/
theorem C81_restarts_partial (cols : List Col) (restarts : ℕ) (start : Option ℕ)
    (maxCombos r : ℕ) (raw : Option ℕ) (fixed : List (List (ℕ × ℝ)))
    (h : optimizeAcq cols restarts start maxCombos = some (.mixed r raw fixed))
    (hr : fixed.length ≤ restarts) : 1 ≤ r := by
  have h1 := (C81_no_restarts_fails cols restarts start maxCombos r raw fixed h).1
  have h2 := (C81_every_combination cols restarts start maxCombos r raw fixed h).2.2.1
  omega

/-- A space with a float and two categorical parameters of 5 choices has 25 combinations. -/
def twoCats : List Col := [⟨"lr", none⟩, ⟨"opt", some 5⟩, ⟨"sched", some 5⟩]

example : ∃ r raw fixed, optimizeAcq twoCats 20 none 30 = some (.mixed r raw fixed) ∧ r = 0 := by
  refine ⟨_, _, _, rfl, ?_⟩
  decide

example : ∃ r raw fixed, optimizeAcq [⟨"lr", none⟩, ⟨"opt", some 3⟩, ⟨"sched", some 5⟩] 20 none 30 =
    some (.mixed r raw fixed) ∧ fixed.length ≤ 20 ∧ r = 1 := by
  refine ⟨_, _, _, rfl, ?_, ?_⟩
  · simp [fixedCats, catColumns, product, Function.comp_def]
  · decide

end Verif.Bo
