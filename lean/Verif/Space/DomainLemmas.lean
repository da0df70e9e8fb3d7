import Verif.Space.Spec
import Mathlib.Tactic.FieldSimp
import Mathlib.Tactic.Ring
import Mathlib.Tactic.NormNum
import Mathlib.Tactic.Positivity

/-! # Lemmas about domains -/

namespace Verif.Space

namespace Domain

theorem make_eq {d d' : Domain} (h : make d = some d') : d = d' := by
  unfold make at h
  split at h
  · simp at h
  · simpa using h

/-- What the constructors guarantee about a domain. -/
structure Shape (d : Domain) : Prop where
  lt : d.lower < d.upper
  isInt_round : d.isInt = d.round
  lowerInt : d.isInt = true → ∃ n : ℤ, d.lower = n
  upperInt : d.isInt = true → ∃ n : ℤ, d.upper = n
  pos : d.logBounds ≠ none → 0 < d.lower
  card : ∀ q, d.card = some q → 2 ≤ q
  cardRound : d.round = true → d.card ≠ none
  /-- the log bounds are the logarithms of numbers that round to the bounds -/
  logs : ∀ lo hi, d.logBounds = some (lo, hi) → ∃ l u : ℝ, 0 < l ∧ 0 < u ∧
    lo = Real.log l ∧ hi = Real.log u ∧
    ((d.round = false ∧ l = d.lower ∧ u = d.upper) ∨
      (d.round = true ∧ d.lower = rnd l ∧ d.upper = rnd u))

theorem mkLogBounds_some {l u : ℝ} {log : Bool} {lb : Option (ℝ × ℝ)}
    (h : mkLogBounds l u log = some lb) :
    (log = false ∧ lb = none) ∨
      (log = true ∧ 0 < l ∧ 0 < u ∧ lb = some (Real.log l, Real.log u)) := by
  unfold mkLogBounds flog at h
  cases log
  · simp at h; exact Or.inl ⟨rfl, h.symm⟩
  · by_cases hl : 0 < l <;> by_cases hu : 0 < u <;> simp [hl, hu] at h
    exact Or.inr ⟨rfl, hl, hu, h.symm⟩

theorem _root_.Verif.Space.Declared.shape {d : Domain} (h : Declared d) : Shape d := by
  obtain ⟨⟨l, u, log, bins, cat, hd, hb⟩, hlt, hpos⟩ := h
  rcases hd with hd | hd
  · unfold floating at hd
    cases hlb : mkLogBounds l u log with
    | none => simp [hlb] at hd
    | some lb =>
      simp only [hlb, Option.bind_eq_bind, Option.bind_some] at hd
      have := make_eq hd
      subst this
      refine ⟨hlt, rfl, by simp, by simp, hpos, ?_, by simp, ?_⟩
      · intro q hq
        cases bins with
        | none => simp [Domain.card, card.byRound] at hq
        | some b =>
          have := hb b rfl
          have hb0 : b ≠ 0 := by omega
          simp [Domain.card, hb0] at hq
          omega
      · intro lo hi he
        simp only at he
        rcases mkLogBounds_some hlb with ⟨_, h2⟩ | ⟨_, h2, h3, h4⟩
        · rw [h2] at he; simp at he
        · rw [h4] at he
          simp only [Option.some.injEq, Prod.mk.injEq] at he
          exact ⟨l, u, h2, h3, he.1.symm, he.2.symm, Or.inl ⟨rfl, rfl, rfl⟩⟩
  · unfold integer at hd
    cases hlb : mkLogBounds l u log with
    | none => simp [hlb] at hd
    | some lb =>
      simp only [hlb, Option.bind_eq_bind, Option.bind_some] at hd
      have := make_eq hd
      subst this
      simp only at hlt
      have hlt' : rnd l < rnd u := by exact_mod_cast hlt
      have hfl : ⌊((rnd u : ℤ) : ℝ) - ((rnd l : ℤ) : ℝ) + 1⌋ = rnd u - rnd l + 1 := by
        rw [← Int.cast_sub, ← Int.cast_one (R := ℝ), ← Int.cast_add, Int.floor_intCast]
      refine ⟨hlt, rfl, fun _ => ⟨_, rfl⟩, fun _ => ⟨_, rfl⟩, hpos, ?_, ?_, ?_⟩
      · intro q hq
        cases bins with
        | none =>
          simp only [Domain.card, card.byRound, if_true, Option.some.injEq, hfl] at hq
          omega
        | some b =>
          have := hb b rfl
          have hb0 : b ≠ 0 := by omega
          simp [Domain.card, hb0] at hq
          omega
      · intro _ hn
        cases bins with
        | none => simp [Domain.card, card.byRound] at hn
        | some b =>
          have := hb b rfl
          have hb0 : b ≠ 0 := by omega
          simp [Domain.card, hb0] at hn
      · intro lo hi he
        simp only at he
        rcases mkLogBounds_some hlb with ⟨_, h2⟩ | ⟨_, h2, h3, h4⟩
        · rw [h2] at he; simp at he
        · rw [h4] at he
          simp only [Option.some.injEq, Prod.mk.injEq] at he
          exact ⟨l, u, h2, h3, he.1.symm, he.2.symm, Or.inr ⟨rfl, rfl, rfl⟩⟩

namespace Shape

variable {d : Domain}

/-- The unit interval shortcut is never taken by a declared domain. -/
theorem not_unitFloat (h : Shape d) : ¬ d.isUnitFloat := by
  rintro ⟨_, _, h3, h4⟩
  rw [h.isInt_round, h4] at h3
  simp at h3

theorem logs_lt (h : Shape d) {lo hi : ℝ} (hl : d.logBounds = some (lo, hi)) : lo < hi := by
  obtain ⟨l, u, hl0, hu0, rfl, rfl, hc⟩ := h.logs lo hi hl
  apply Real.log_lt_log hl0
  rcases hc with ⟨_, rfl, rfl⟩ | ⟨_, h1, h2⟩
  · exact h.lt
  · by_contra hcon
    have := rnd_mono (not_lt.mp hcon)
    have hlt := h.lt
    rw [h1, h2] at hlt
    have : rnd l < rnd u := by exact_mod_cast hlt
    omega

end Shape

theorem quantize_unit {q : ℤ} (hq : 2 ≤ q) (x : ℝ) :
    ∃ k : ℤ, 0 ≤ k ∧ k ≤ q - 1 ∧ k = min (max ⌊x * q⌋ 0) (q - 1) ∧
      quantize (some q) x = some ((k : ℝ) / ((q - 1 : ℤ) : ℝ)) := by
  have hq0 : ((q - 1 : ℤ) : ℝ) ≠ 0 := by
    have : q - 1 ≠ 0 := by omega
    exact_mod_cast this
  refine ⟨min (max ⌊x * q⌋ 0) (q - 1), ?_, ?_, rfl, ?_⟩
  · omega
  · omega
  · simp only [quantize, fdiv, if_neg hq0]

/-- Quantizing a bin value gives the bin value. -/
theorem quantize_bin {q k : ℤ} (hq : 2 ≤ q) (h0 : 0 ≤ k) (h1 : k ≤ q - 1) :
    quantize (some q) ((k : ℝ) / ((q - 1 : ℤ) : ℝ)) = some ((k : ℝ) / ((q - 1 : ℤ) : ℝ)) := by
  obtain ⟨m, hm0, hm1, hm, he⟩ := quantize_unit hq ((k : ℝ) / ((q - 1 : ℤ) : ℝ))
  have hpos : (0 : ℝ) < ((q - 1 : ℤ) : ℝ) := by
    have : 0 < q - 1 := by omega
    exact_mod_cast this
  have key : (k : ℝ) / ((q - 1 : ℤ) : ℝ) * q = k + k / ((q - 1 : ℤ) : ℝ) := by
    have : (q : ℝ) = ((q - 1 : ℤ) : ℝ) + 1 := by push_cast; ring
    field_simp
    rw [this]
  have hmk : m = k := by
    rcases lt_or_eq_of_le h1 with hlt | heq
    · have hf : ⌊(k : ℝ) / ((q - 1 : ℤ) : ℝ) * q⌋ = k := by
        rw [key, Int.floor_eq_iff]
        constructor
        · have : (0 : ℝ) ≤ k / ((q - 1 : ℤ) : ℝ) := by
            apply div_nonneg _ hpos.le
            exact_mod_cast h0
          linarith
        · have : (k : ℝ) / ((q - 1 : ℤ) : ℝ) < 1 := by
            rw [div_lt_one hpos]; exact_mod_cast hlt
          linarith
      rw [hf] at hm; omega
    · have hf : (k : ℤ) ≤ ⌊(k : ℝ) / ((q - 1 : ℤ) : ℝ) * q⌋ := by
        rw [key, Int.le_floor]
        have : (0 : ℝ) ≤ k / ((q - 1 : ℤ) : ℝ) := by
          apply div_nonneg _ hpos.le
          exact_mod_cast h0
        linarith
      omega
  rw [he, hmk]

theorem bin_mem_unit {q k : ℤ} (hq : 2 ≤ q) (h0 : 0 ≤ k) (h1 : k ≤ q - 1) :
    0 ≤ (k : ℝ) / ((q - 1 : ℤ) : ℝ) ∧ (k : ℝ) / ((q - 1 : ℤ) : ℝ) ≤ 1 := by
  have hpos : (0 : ℝ) < ((q - 1 : ℤ) : ℝ) := by
    have : 0 < q - 1 := by omega
    exact_mod_cast this
  constructor
  · apply div_nonneg _ hpos.le; exact_mod_cast h0
  · rw [div_le_one hpos]; exact_mod_cast h1

theorem quantize_mem {d : Domain} (h : Shape d) {x : ℝ} (hx : d.card = none → 0 ≤ x ∧ x ≤ 1) :
    ∃ y, quantize d.card x = some y ∧ 0 ≤ y ∧ y ≤ 1 := by
  cases hc : d.card with
  | none => exact ⟨x, rfl, hx hc⟩
  | some q =>
    have hq := h.card q hc
    obtain ⟨k, h0, h1, _, he⟩ := quantize_unit hq x
    exact ⟨_, he, bin_mem_unit hq h0 h1⟩

@[simp] theorem asDtype_intCast (b : Bool) (n : ℤ) : asDtype b (n : ℝ) = n := by
  unfold asDtype
  cases b <;> simp

theorem asDtype_of (b : Bool) {x : ℝ} (h : b = true → ∃ n : ℤ, x = n) : asDtype b x = x := by
  cases b with
  | false => rfl
  | true => obtain ⟨n, rfl⟩ := h rfl; simp

/-- The last two steps of `from_unit` and `cast`, on a declared domain. -/
theorem finish_eq {d : Domain} (h : Shape d) (z : ℝ) :
    asDtype d.isInt (roundIf d.round z) = roundIf d.round z := by
  apply asDtype_of
  intro hi
  rw [h.isInt_round] at hi
  exact ⟨rnd z, by simp [roundIf, hi]⟩

/-- `from_unit` maps the unit interval into the domain. -/
theorem fromUnit_value {d : Domain} (h : Shape d) {x : ℝ} (h0 : 0 ≤ x) (h1 : x ≤ 1) :
    ∃ y, d.fromUnit x = some y ∧ IsValue d y := by
  obtain ⟨y, hy, hy0, hy1⟩ := quantize_mem h (x := x) (fun _ => ⟨h0, h1⟩)
  unfold fromUnit
  rw [if_neg h.not_unitFloat]
  simp only [hy, Option.bind_eq_bind, Option.bind_some, finish_eq h, Option.pure_def]
  refine ⟨_, rfl, ?_⟩
  have hint : d.isInt = true → ∃ n : ℤ, roundIf d.round (match d.logBounds with
      | some (lo, hi) => Real.exp (y * (hi - lo) + lo)
      | none => y * (d.upper - d.lower) + d.lower) = n := by
    intro hi
    rw [h.isInt_round] at hi
    simp only [roundIf, hi, if_true]
    exact ⟨_, rfl⟩
  have hb : d.lower ≤ roundIf d.round (match d.logBounds with
      | some (lo, hi) => Real.exp (y * (hi - lo) + lo)
      | none => y * (d.upper - d.lower) + d.lower) ∧
      roundIf d.round (match d.logBounds with
      | some (lo, hi) => Real.exp (y * (hi - lo) + lo)
      | none => y * (d.upper - d.lower) + d.lower) ≤ d.upper := by
    cases hl : d.logBounds with
    | none =>
      simp only
      have hlt := h.lt
      have e1 : d.lower ≤ y * (d.upper - d.lower) + d.lower := by
        have : 0 ≤ y * (d.upper - d.lower) := mul_nonneg hy0 (by linarith)
        linarith
      have e2 : y * (d.upper - d.lower) + d.lower ≤ d.upper := by
        have : y * (d.upper - d.lower) ≤ 1 * (d.upper - d.lower) :=
          mul_le_mul_of_nonneg_right hy1 (by linarith)
        linarith
      cases hr : d.round with
      | false => simp only [roundIf]; exact ⟨e1, e2⟩
      | true =>
        have hi : d.isInt = true := by rw [h.isInt_round, hr]
        obtain ⟨a, ha⟩ := h.lowerInt hi
        obtain ⟨b, hb⟩ := h.upperInt hi
        simp only [roundIf, if_true]
        rw [ha, hb] at e1 e2
        rw [ha, hb]
        exact ⟨by exact_mod_cast le_rnd_of_le e1, by exact_mod_cast rnd_le_of_le e2⟩
    | some p =>
      obtain ⟨lo, hi⟩ := p
      simp only
      have hlt := h.logs_lt hl
      obtain ⟨l, u, hl0, hu0, hlo, hhi, hc⟩ := h.logs lo hi hl
      have e1 : lo ≤ y * (hi - lo) + lo := by
        have : 0 ≤ y * (hi - lo) := mul_nonneg hy0 (by linarith)
        linarith
      have e2 : y * (hi - lo) + lo ≤ hi := by
        have : y * (hi - lo) ≤ 1 * (hi - lo) :=
          mul_le_mul_of_nonneg_right hy1 (by linarith)
        linarith
      have f1 : l ≤ Real.exp (y * (hi - lo) + lo) := by
        have := Real.exp_le_exp.mpr e1
        rwa [hlo, Real.exp_log hl0, ← hlo] at this
      have f2 : Real.exp (y * (hi - lo) + lo) ≤ u := by
        have := Real.exp_le_exp.mpr e2
        rw [hhi, Real.exp_log hu0, ← hhi] at this
        exact this
      rcases hc with ⟨hr, rfl, rfl⟩ | ⟨hr, g1, g2⟩
      · simp only [roundIf, hr]; exact ⟨f1, f2⟩
      · simp only [roundIf, hr, if_true]
        rw [g1, g2]
        exact ⟨by exact_mod_cast rnd_mono f1, by exact_mod_cast rnd_mono f2⟩
  exact ⟨hb.1, hb.2, hint⟩

theorem fdiv_eq {a b : ℝ} (h : b ≠ 0) : fdiv a b = some (a / b) := by
  simp [fdiv, h]

theorem flog_eq {x : ℝ} (h : 0 < x) : flog x = some (Real.log x) := by
  simp [flog, h]

/-- `to_unit` maps the domain into the unit interval. -/
theorem toUnit_unit {d : Domain} (h : Shape d) {x : ℝ} (hx : IsValue d x) :
    ∃ y, d.toUnit x = some y ∧ 0 ≤ y ∧ y ≤ 1 := by
  obtain ⟨hx0, hx1, _⟩ := hx
  unfold toUnit
  rw [if_neg (fun hh => h.not_unitFloat hh.1)]
  have hlt := h.lt
  cases hl : d.logBounds with
  | none =>
    simp only
    have hd : d.upper - d.lower ≠ 0 := by linarith
    rw [fdiv_eq hd]
    apply quantize_mem h
    intro _
    have hd' : 0 < d.upper - d.lower := by linarith
    exact ⟨div_nonneg (by linarith) hd'.le, by rw [div_le_one hd']; linarith⟩
  | some p =>
    obtain ⟨lo, hi⟩ := p
    simp only
    have hpos : 0 < x := lt_of_lt_of_le (h.pos (by simp [hl])) hx0
    have hlt' := h.logs_lt hl
    have hd : hi - lo ≠ 0 := by linarith
    rw [flog_eq hpos]
    simp only [Option.bind_eq_bind, Option.bind_some]
    rw [fdiv_eq hd]
    simp only [Option.bind_some]
    apply quantize_mem h
    intro hc
    have hr : d.round = false := by
      cases hr : d.round with
      | false => rfl
      | true => exact absurd hc (h.cardRound hr)
    obtain ⟨l, u, hl0, hu0, hlo, hhi, hcc⟩ := h.logs lo hi hl
    rcases hcc with ⟨_, rfl, rfl⟩ | ⟨hr', _⟩
    · have a := Real.log_le_log hl0 hx0
      have b := Real.log_le_log hpos hx1
      have hd' : 0 < hi - lo := by linarith
      exact ⟨div_nonneg (by linarith) hd'.le, by rw [div_le_one hd']; linarith⟩
    · rw [hr] at hr'; simp at hr'

end Domain

end Verif.Space
