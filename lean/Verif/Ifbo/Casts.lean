import Verif.Ifbo.Model
import Verif.Space.DomainProps
import Mathlib.Tactic.FieldSimp
import Mathlib.Tactic.Positivity

/-!
# The conversions of ifBO, computed

Closed forms of the casts between the domain of the fidelity, the domain of the budgets of the
surrogate and the domain of the indices.
-/

namespace Verif.Ifbo

open Verif.Space Verif.Space.Domain

/-- The domain of a float fidelity or of the budgets. -/
def floatDom (l u : ℝ) : Domain := ⟨l, u, false, false, none, none, false⟩

/-- The domain of an integer fidelity or of the indices. -/
noncomputable def intDom (l u : ℤ) : Domain := ⟨l, u, true, true, none, none, false⟩

theorem floating_eq (l u : ℝ) : Domain.floating l u false none false = some (floatDom l u) := by
  simp [Domain.floating, mkLogBounds, Domain.make, floatDom]

theorem integer_eq (l u : ℤ) : Domain.integer l u false none false = some (intDom l u) := by
  simp [Domain.integer, mkLogBounds, Domain.make, intDom]

theorem indices_eq (n : ℕ) : Domain.indices n = some (intDom 0 ((n : ℤ) - 1)) := by
  have := integer_eq 0 ((n : ℤ) - 1)
  unfold Domain.indices
  rw [← this]
  push_cast
  rfl

@[simp] theorem floatDom_card (l u : ℝ) : (floatDom l u).card = none := rfl

@[simp] theorem intDom_card (l u : ℤ) : (intDom l u).card = some (u - l + 1) := by
  simp only [Domain.card, Domain.card.byRound, intDom]
  have : ((u : ℝ) - l + 1) = ((u - l + 1 : ℤ) : ℝ) := by push_cast; ring
  rw [if_pos trivial, this, Int.floor_intCast]

theorem floatDom_not_unit (l u : ℝ) : ¬ (floatDom l u).isUnitFloat := by
  simp [isUnitFloat, floatDom]

theorem intDom_not_unit (l u : ℤ) : ¬ (intDom l u).isUnitFloat := by
  simp [isUnitFloat, intDom]

theorem floatDom_toUnit {l u : ℝ} (h : l ≠ u) (x : ℝ) :
    (floatDom l u).toUnit x = some ((x - l) / (u - l)) := by
  have : u - l ≠ 0 := sub_ne_zero.mpr (Ne.symm h)
  unfold toUnit
  rw [if_neg (fun hh => floatDom_not_unit l u hh.1)]
  simp [floatDom, fdiv, this, quantize, Domain.card, Domain.card.byRound]

theorem floatDom_toUnit_degenerate (l x : ℝ) : (floatDom l l).toUnit x = none := by
  unfold toUnit
  rw [if_neg (fun hh => floatDom_not_unit l l hh.1)]
  simp [floatDom, fdiv]

theorem floatDom_fromUnit (l u x : ℝ) :
    (floatDom l u).fromUnit x = some (x * (u - l) + l) := by
  unfold fromUnit
  rw [if_neg (floatDom_not_unit l u)]
  simp [floatDom, quantize, Domain.card, Domain.card.byRound, asDtype, roundIf]

/-- The bin of `q` bins in which a number of the unit interval lies. -/
noncomputable def bin (q : ℤ) (x : ℝ) : ℤ := min (max ⌊x * q⌋ 0) (q - 1)

theorem quantize_eq {q : ℤ} (hq : 2 ≤ q) (x : ℝ) :
    quantize (some q) x = some ((bin q x : ℝ) / ((q - 1 : ℤ) : ℝ)) := by
  obtain ⟨k, _, _, hk, h⟩ := quantize_unit hq x
  rw [h, hk]
  rfl

theorem bin_bounds {q : ℤ} (hq : 2 ≤ q) (x : ℝ) : 0 ≤ bin q x ∧ bin q x ≤ q - 1 := by
  unfold bin; omega

theorem bin_bin {q k : ℤ} (hq : 2 ≤ q) (h0 : 0 ≤ k) (h1 : k ≤ q - 1) :
    bin q ((k : ℝ) / ((q - 1 : ℤ) : ℝ)) = k := by
  have hpos : (0 : ℝ) < ((q - 1 : ℤ) : ℝ) := by
    have : 0 < q - 1 := by omega
    exact_mod_cast this
  have h := (quantize_eq hq ((k : ℝ) / ((q - 1 : ℤ) : ℝ))).symm.trans (quantize_bin hq h0 h1)
  simp only [Option.some.injEq] at h
  rw [div_left_inj' hpos.ne'] at h
  exact_mod_cast h

theorem intDom_toUnit {l u : ℤ} (h : l < u) (x : ℝ) :
    (intDom l u).toUnit x =
      some ((bin (u - l + 1) ((x - l) / (u - l)) : ℝ) / ((u : ℝ) - l)) := by
  have hne : (u : ℝ) - l ≠ 0 := by
    have : (l : ℝ) < u := by exact_mod_cast h
    linarith
  unfold toUnit
  rw [if_neg (fun hh => intDom_not_unit l u hh.1), intDom_card]
  have : quantize (some (u - l + 1)) ((x - l) / (u - l)) =
      some ((bin (u - l + 1) ((x - l) / (u - l)) : ℝ) / ((u : ℝ) - l)) := by
    rw [quantize_eq (by omega)]
    push_cast
    congr 2
    ring
  simp only [intDom, fdiv, hne, if_false, Option.bind_eq_bind, Option.bind_some]
  exact this

theorem intDom_fromUnit {l u : ℤ} (h : l < u) (x : ℝ) :
    (intDom l u).fromUnit x = some ((bin (u - l + 1) x + l : ℤ) : ℝ) := by
  have hne : (u : ℝ) - l ≠ 0 := by
    have : (l : ℝ) < u := by exact_mod_cast h
    linarith
  unfold fromUnit
  rw [if_neg (intDom_not_unit l u), intDom_card, quantize_eq (by omega)]
  simp only [intDom, Option.bind_eq_bind, Option.bind_some, Option.pure_def, roundIf, if_true]
  have : (bin (u - l + 1) x : ℝ) / ((u - l + 1 - 1 : ℤ) : ℝ) * ((u : ℝ) - l) + l =
      ((bin (u - l + 1) x + l : ℤ) : ℝ) := by
    push_cast
    have h2 : (u : ℝ) - l + 1 - 1 = u - l := by ring
    rw [h2]
    field_simp
  rw [this, rnd_intCast, asDtype_of _ (fun _ => ⟨_, rfl⟩)]

/-! ## Casts -/

theorem cast_float_float {l u l' u' : ℝ} (h : l ≠ u) (h' : ¬ (l' = l ∧ u' = u)) (x : ℝ) :
    (floatDom l' u').cast x (floatDom l u) = some ((x - l) / (u - l) * (u' - l') + l') := by
  unfold Domain.cast
  rw [if_neg (fun hh => h' hh.1), if_neg (floatDom_not_unit l u),
    if_neg (by simp [floatDom]), floatDom_toUnit h]
  simp [floatDom_fromUnit]

theorem cast_int_float {l u : ℝ} (h : l ≠ u) {l' u' : ℤ} (h' : l' < u') (x : ℝ) :
    (intDom l' u').cast x (floatDom l u) =
      some ((bin (u' - l' + 1) ((x - l) / (u - l)) + l' : ℤ) : ℝ) := by
  unfold Domain.cast
  rw [if_neg (by simp), if_neg (floatDom_not_unit l u),
    if_neg (by simp [floatDom]), floatDom_toUnit h]
  simp only [Option.bind_eq_bind, Option.bind_some]
  exact intDom_fromUnit h' _

theorem cast_float_int {l u : ℤ} (h : l < u) (l' u' : ℝ) (x : ℝ) :
    (floatDom l' u').cast x (intDom l u) =
      some ((bin (u - l + 1) ((x - l) / (u - l)) : ℝ) / ((u : ℝ) - l) * (u' - l') + l') := by
  unfold Domain.cast
  rw [if_neg (by simp), if_neg (intDom_not_unit l u),
    if_neg (by simp [intDom]), intDom_toUnit h]
  simp only [Option.bind_eq_bind, Option.bind_some]
  exact floatDom_fromUnit _ _ _

theorem cast_int_int {l u l' u' : ℤ} (h : l < u) (h' : l' < u') (hne : ¬ (l' = l ∧ u' = u))
    (x : ℝ) :
    (intDom l' u').cast x (intDom l u) =
      some ((bin (u' - l' + 1) ((bin (u - l + 1) ((x - l) / (u - l)) : ℝ) / ((u : ℝ) - l)) + l' :
        ℤ) : ℝ) := by
  unfold Domain.cast
  rw [if_neg, if_neg (intDom_not_unit l u),
    if_neg (by simp [intDom]), intDom_toUnit h]
  · simp only [Option.bind_eq_bind, Option.bind_some]
    exact intDom_fromUnit h' _
  · rintro ⟨⟨h1, h2⟩, -⟩
    simp only [intDom, Int.cast_inj] at h1 h2
    exact hne ⟨h1, h2⟩

end Verif.Ifbo
