import Verif.MF.Geometry
import Verif.MF.Spec

/-! # The brackets that the code computes have the shape assumed elsewhere -/

namespace Neps.MF

section

variable {lo hi : ℝ} {eta : ℕ} {isInt : Bool} {s : ℕ}

/-- The stopping rate limit as a natural number. -/
noncomputable abbrev limit (lo hi : ℝ) (eta : ℕ) : ℕ := (stoppingLimit lo hi eta).toNat

theorem limit_cast (hlo : 0 < lo) (hle : lo ≤ hi) (he : 2 ≤ eta) :
    (s : ℤ) ≤ stoppingLimit lo hi eta ↔ s ≤ limit lo hi eta := by
  have := stoppingLimit_nonneg hlo hle he
  simp only [limit]
  omega

theorem bracketOf_minR (hlo : 0 < lo) (hle : lo ≤ hi) (he : 2 ≤ eta) (hs : s ≤ limit lo hi eta) :
    (bracketOf lo hi eta isInt s).minR = s := by
  simp only [bracketOf, rungMap, rungMapGo_keys,
    nrungs_eq hlo hle he ((limit_cast hlo hle he).2 hs)]
  exact (range'_min_max s _).1

theorem bracketOf_maxR (hlo : 0 < lo) (hle : lo ≤ hi) (he : 2 ≤ eta) (hs : s ≤ limit lo hi eta) :
    (bracketOf lo hi eta isInt s).maxR = limit lo hi eta := by
  simp only [bracketOf, rungMap, rungMapGo_keys,
    nrungs_eq hlo hle he ((limit_cast hlo hle he).2 hs)]
  rw [(range'_min_max s _).2]
  simp only [limit] at hs ⊢
  omega

theorem bracketOf_cap (hlo : 0 < lo) (hle : lo ≤ hi) (he : 2 ≤ eta) (hs : s ≤ limit lo hi eta)
    {r : ℕ} (h1 : s ≤ r) (h2 : r ≤ limit lo hi eta) :
    (bracketOf lo hi eta isInt s).cap r =
      (limit lo hi eta + 1) / (limit lo hi eta - s + 1) * eta ^ (limit lo hi eta - r) := by
  simp only [bracketOf, configMap, nrungs_eq hlo hle he ((limit_cast hlo hle he).2 hs),
    configMapGo_lookup]
  rw [if_pos (by simp only [limit] at hs h2; omega)]
  simp only [Option.getD_some, Nat.zero_add]
  have hsplit : (stoppingLimit lo hi eta).toNat - s = (limit lo hi eta - r) + (r - s) := by
    simp only [limit] at h2 ⊢; omega
  rw [hsplit, pow_add, ← Nat.mul_assoc, Nat.mul_div_cancel _ (Nat.pow_pos (by omega))]

theorem bracketOf_budget (hlo : 0 < lo) (hle : lo ≤ hi) (he : 2 ≤ eta) (hs : s ≤ limit lo hi eta)
    {r : ℕ} (h1 : s ≤ r) (h2 : r ≤ limit lo hi eta) :
    (bracketOf lo hi eta isInt s).budget r =
      if isInt then ((⌊hi / (eta : ℝ) ^ (limit lo hi eta - r)⌋ : ℤ) : ℝ)
      else hi / (eta : ℝ) ^ (limit lo hi eta - r) := by
  simp only [bracketOf, rungMap, nrungs_eq hlo hle he ((limit_cast hlo hle he).2 hs),
    rungMapGo_lookup]
  rw [if_pos (by simp only [limit] at hs h2; omega)]
  have : s + ((stoppingLimit lo hi eta).toNat - s + 1) - 1 - r = limit lo hi eta - r := by
    simp only [limit] at hs h2 ⊢; omega
  rw [this]
  rfl

theorem bracketOf_good (hlo : 0 < lo) (hle : lo ≤ hi) (he : 2 ≤ eta) (hs : s ≤ limit lo hi eta) :
    Good (bracketOf lo hi eta isInt s) := by
  have hmin := bracketOf_minR (isInt := isInt) hlo hle he hs
  have hmax := bracketOf_maxR (isInt := isInt) hlo hle he hs
  refine ⟨by rw [hmin, hmax]; exact hs, he, ?_, ?_⟩
  · intro r h1 h2
    rw [hmin] at h1; rw [hmax] at h2
    rw [bracketOf_cap hlo hle he hs h1 (by omega), bracketOf_cap hlo hle he hs (by omega) h2]
    have : limit lo hi eta - r = (limit lo hi eta - (r + 1)) + 1 := by omega
    rw [this, pow_succ]
    change _ = eta * _
    ring
  · rw [hmax, bracketOf_cap hlo hle he hs hs (Nat.le_refl _), Nat.sub_self, pow_zero, Nat.mul_one]
    exact Nat.div_pos (by omega) (by omega)

end

end Neps.MF
