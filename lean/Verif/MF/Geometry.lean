import Verif.MF.Model
import Mathlib.Analysis.SpecialFunctions.Log.Basic
import Mathlib.Tactic.FieldSimp
import Mathlib.Tactic.Positivity

/-!
# Rungs, budgets and capacities of a bracket

Model of `SuccessiveHalvingBase.__init__`, `_get_rung_map` and `_get_config_map`
(`neps/optimizers/multi_fidelity/successive_halving.py:121-140, 175-214`), over the real numbers:
floating-point rounding of the logarithms is not modelled.
-/

namespace Neps.MF

/-- `stopping_rate_limit`, `successive_halving.py:123-125`. -/
noncomputable def stoppingLimit (lo hi : ℝ) (eta : ℕ) : ℤ :=
  ⌊Real.log (hi / lo) / Real.log eta⌋

/-- `nrungs`, `successive_halving.py:178-184` and `199-205`. -/
noncomputable def nrungs (lo hi : ℝ) (eta s : ℕ) : ℕ :=
  (⌊Real.log (hi / (lo * (eta : ℝ) ^ s)) / Real.log eta⌋ + 1).toNat

/-- The loop of `_get_rung_map`, `successive_halving.py:187-193`: rungs from the highest, dividing
the budget by `eta` each time; `int(...)` of a positive number if the fidelity is an integer. -/
noncomputable def rungMapGo (eta : ℕ) (isInt : Bool) (s : ℕ) : ℕ → ℝ → List (ℕ × ℝ)
  | 0, _ => []
  | i + 1, mb => (i + s, if isInt then (⌊mb⌋ : ℝ) else mb) :: rungMapGo eta isInt s i (mb / eta)

/-- `_get_rung_map`, `successive_halving.py:175-194`. -/
noncomputable def rungMap (lo hi : ℝ) (eta : ℕ) (isInt : Bool) (s : ℕ) : List (ℕ × ℝ) :=
  rungMapGo eta isInt s (nrungs lo hi eta s) hi

/-- The loop of `_get_config_map`, `successive_halving.py:211-213`; the arguments are the number
of passes left, `i` and `_n_config`. -/
def configMapGo (eta s : ℕ) : ℕ → ℕ → ℕ → List (ℕ × ℕ)
  | 0, _, _ => []
  | k + 1, i, n => (i + s, n) :: configMapGo eta s k (i + 1) (n / eta)

/-- `_get_config_map`, `successive_halving.py:196-214`. `np.floor(s_max / (_s + 1))` is a division
of natural numbers because `s <= stopping_rate_limit` is asserted. -/
noncomputable def configMap (lo hi : ℝ) (eta s : ℕ) : List (ℕ × ℕ) :=
  let limit := (stoppingLimit lo hi eta).toNat
  configMapGo eta s (nrungs lo hi eta s) 0 ((limit + 1) / (limit - s + 1) * eta ^ (limit - s))

/-- The bracket with early stopping rate `s`: `min_rung` and `max_rung` are the smallest and the
largest key of the rung map (`successive_halving.py:132-133`). -/
noncomputable def bracketOf (lo hi : ℝ) (eta : ℕ) (isInt : Bool) (s : ℕ) : Bracket ℝ where
  minR := ((rungMap lo hi eta isInt s).map (·.1)).min?.getD 0
  maxR := ((rungMap lo hi eta isInt s).map (·.1)).max?.getD 0
  eta := eta
  cap r := ((configMap lo hi eta s).lookup r).getD 0
  budget r := ((rungMap lo hi eta isInt s).lookup r).getD 0

/-! ## Lemmas -/

section

variable {lo hi : ℝ} {eta : ℕ}

theorem log_eta_pos (he : 2 ≤ eta) : 0 < Real.log eta :=
  Real.log_pos (by exact_mod_cast he)

theorem stoppingLimit_nonneg (hlo : 0 < lo) (hle : lo ≤ hi) (he : 2 ≤ eta) :
    0 ≤ stoppingLimit lo hi eta := by
  apply Int.floor_nonneg.2
  apply div_nonneg _ (log_eta_pos he).le
  exact Real.log_nonneg (by rw [le_div_iff₀ hlo]; linarith)

/-- `eta ^ limit ≤ hi / lo < eta ^ (limit + 1)`. -/
theorem stoppingLimit_spec (hlo : 0 < lo) (hle : lo ≤ hi) (he : 2 ≤ eta) :
    lo * (eta : ℝ) ^ (stoppingLimit lo hi eta).toNat ≤ hi ∧
      hi < lo * (eta : ℝ) ^ ((stoppingLimit lo hi eta).toNat + 1) := by
  have hpos := log_eta_pos he
  have heta : (0 : ℝ) < eta := by positivity
  have hr : 0 < hi / lo := div_pos (by linarith) hlo
  have hcast : (((stoppingLimit lo hi eta).toNat : ℕ) : ℝ) = (stoppingLimit lo hi eta : ℝ) := by
    have := Int.toNat_of_nonneg (stoppingLimit_nonneg hlo hle he)
    exact_mod_cast congrArg (fun z : ℤ => (z : ℝ)) this
  constructor
  · have h := Int.floor_le (Real.log (hi / lo) / Real.log eta)
    rw [le_div_iff₀ hpos] at h
    have h2 : Real.log ((eta : ℝ) ^ (stoppingLimit lo hi eta).toNat) ≤ Real.log (hi / lo) := by
      rw [Real.log_pow, hcast]; exact h
    have h3 := (Real.log_le_log_iff (by positivity) hr).1 h2
    rw [le_div_iff₀ hlo] at h3
    linarith
  · have h := Int.lt_floor_add_one (Real.log (hi / lo) / Real.log eta)
    rw [div_lt_iff₀ hpos] at h
    have h2 : Real.log (hi / lo) < Real.log ((eta : ℝ) ^ ((stoppingLimit lo hi eta).toNat + 1)) := by
      rw [Real.log_pow]; push_cast; rw [hcast]; exact h
    have h3 := (Real.log_lt_log_iff hr (by positivity)).1 h2
    rw [div_lt_iff₀ hlo] at h3
    linarith

/-- The number of rungs of the bracket `s`. -/
theorem nrungs_eq (hlo : 0 < lo) (hle : lo ≤ hi) (he : 2 ≤ eta) {s : ℕ}
    (hs : (s : ℤ) ≤ stoppingLimit lo hi eta) :
    nrungs lo hi eta s = (stoppingLimit lo hi eta).toNat - s + 1 := by
  have hpos := log_eta_pos he
  have heta : (0 : ℝ) < eta := by positivity
  have h1 : Real.log (hi / (lo * (eta : ℝ) ^ s)) / Real.log eta
      = Real.log (hi / lo) / Real.log eta - (s : ℕ) := by
    rw [← div_div, Real.log_div (by have : 0 < hi := by linarith
                                    positivity) (by positivity), Real.log_pow, sub_div,
      mul_div_assoc, div_self hpos.ne', mul_one]
  rw [nrungs, h1, Int.floor_sub_natCast]
  change (stoppingLimit lo hi eta - s + 1).toNat = _
  have := stoppingLimit_nonneg hlo hle he
  omega

theorem rungMapGo_lookup (eta : ℕ) (isInt : Bool) (s n : ℕ) : ∀ (mb : ℝ) (r : ℕ),
    (rungMapGo eta isInt s n mb).lookup r =
      if s ≤ r ∧ r < s + n then
        some (if isInt then ((⌊mb / (eta : ℝ) ^ (s + n - 1 - r)⌋ : ℤ) : ℝ)
          else mb / (eta : ℝ) ^ (s + n - 1 - r))
      else none := by
  induction n with
  | zero =>
    intro mb r
    rw [if_neg (by omega)]
    rfl
  | succ n ih =>
    intro mb r
    simp only [rungMapGo, List.lookup_cons]
    by_cases hr : r = n + s
    · subst hr
      rw [if_pos (show s ≤ n + s ∧ n + s < s + (n + 1) by omega)]
      have : s + (n + 1) - 1 - (n + s) = 0 := by omega
      rw [this]
      simp
    · have hb : (r == n + s) = false := by simpa using hr
      simp only [hb, ih]
      by_cases hin : s ≤ r ∧ r < s + n
      · rw [if_pos hin, if_pos (show s ≤ r ∧ r < s + (n + 1) by omega)]
        have : s + (n + 1) - 1 - r = (s + n - 1 - r) + 1 := by omega
        rw [this, pow_succ, div_div, mul_comm (eta : ℝ)]
      · rw [if_neg hin, if_neg (show ¬ (s ≤ r ∧ r < s + (n + 1)) by omega)]

theorem rungMapGo_keys (eta : ℕ) (isInt : Bool) (s n : ℕ) : ∀ (mb : ℝ),
    (rungMapGo eta isInt s n mb).map (·.1) = (List.range' s n).reverse := by
  induction n with
  | zero => intro mb; rfl
  | succ n ih =>
    intro mb
    simp only [rungMapGo, List.map_cons, ih]
    rw [List.range'_concat, List.reverse_append]
    simp [Nat.add_comm]

theorem configMapGo_lookup (eta s k : ℕ) : ∀ (i n r : ℕ),
    (configMapGo eta s k i n).lookup r =
      if i + s ≤ r ∧ r < i + s + k then some (n / eta ^ (r - (i + s))) else none := by
  induction k with
  | zero => intro i n r; rw [if_neg (by omega)]; rfl
  | succ k ih =>
    intro i n r
    simp only [configMapGo, List.lookup_cons]
    by_cases hr : r = i + s
    · subst hr
      rw [if_pos (by omega)]
      simp
    · have hb : (r == i + s) = false := by simpa using hr
      simp only [hb, ih]
      by_cases hin : i + s < r ∧ r < i + s + (k + 1)
      · rw [if_pos (by omega), if_pos (by omega)]
        have : r - (i + s) = (r - (i + 1 + s)) + 1 := by omega
        rw [this, pow_succ', Nat.div_div_eq_div_mul]
      · rw [if_neg (by omega), if_neg (by omega)]

/-- Smallest and largest key. -/
theorem range'_min_max (s n : ℕ) :
    ((List.range' s (n + 1)).reverse.min?.getD 0 = s) ∧
      ((List.range' s (n + 1)).reverse.max?.getD 0 = s + n) := by
  constructor
  · have : (List.range' s (n + 1)).reverse.min? = some s := by
      rw [List.min?_eq_some_iff]
      constructor
      · simp [List.mem_range'_1]
      · intro b hb
        simp [List.mem_range'_1] at hb
        omega
    rw [this]; rfl
  · have : (List.range' s (n + 1)).reverse.max? = some (s + n) := by
      rw [List.max?_eq_some_iff]
      constructor
      · simp [List.mem_range'_1]
      · intro b hb
        simp [List.mem_range'_1] at hb
        omega
    rw [this]; rfl

end

end Neps.MF
