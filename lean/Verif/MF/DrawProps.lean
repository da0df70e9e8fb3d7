import Verif.MF.Draw
import Mathlib.Algebra.BigOperators.Group.List.Basic
import Mathlib.Algebra.Order.Field.Basic
import Mathlib.Tactic.FieldSimp
import Mathlib.Tactic.Positivity
import Mathlib.Tactic.Ring
import Mathlib.Tactic.Linarith
import Mathlib.Tactic.LinearCombination
import Mathlib.Tactic.NormNum

/-!
# C164: the bracket that asynchronous Hyperband draws
-/

namespace Neps.MF

/-! ## Lemmas -/

/-- `f 0 + ... + f (n - 1)`. -/
def total (f : ℕ → ℚ) : ℕ → ℚ
  | 0 => 0
  | n + 1 => total f n + f n

theorem sum_range_eq_total (f : ℕ → ℚ) (n : ℕ) : ((List.range n).map f).sum = total f n := by
  induction n with
  | zero => rfl
  | succ n ih =>
    rw [List.range_succ, List.map_append, List.sum_append, ih]
    simp [total]

theorem bracketWeight_pos {eta K s : ℕ} (he : 1 ≤ eta) (hs : s ≤ K) : 0 < bracketWeight eta K s := by
  unfold bracketWeight
  have h1 : (0 : ℚ) < eta := by exact_mod_cast he
  have h2 : (s : ℚ) ≤ K := by exact_mod_cast hs
  have h3 : (0 : ℚ) < (K : ℚ) - s + 1 := by linarith
  positivity

theorem total_mono {f : ℕ → ℚ} {n : ℕ} (hf : ∀ i < n, 0 < f i) :
    ∀ b ≤ n, ∀ a ≤ b, total f a ≤ total f b := by
  intro b
  induction b with
  | zero => intro _ a ha; rw [Nat.le_zero.mp ha]
  | succ b ih =>
    intro hb a ha
    rcases Nat.lt_or_ge a (b + 1) with h | h
    · have := ih (by omega) a (by omega)
      have := hf b (by omega)
      simp only [total]
      linarith
    · rw [le_antisymm ha h]

theorem total_div (f : ℕ → ℚ) (c : ℚ) (n : ℕ) : total (fun i => f i / c) n = total f n / c := by
  induction n with
  | zero => simp [total]
  | succ n ih => simp only [total, ih]; ring

theorem total_pos {f : ℕ → ℚ} {n : ℕ} (hn : 0 < n) (hf : ∀ i < n, 0 < f i) : 0 < total f n := by
  have h := total_mono hf n le_rfl 1 hn
  have h0 := hf 0 hn
  simp only [total] at h
  linarith

/-- The probability of bracket `s`. -/
def prob (eta K s : ℕ) : ℚ := bracketWeight eta K s / total (bracketWeight eta K) (K + 1)

theorem bracketProbs_eq (eta K : ℕ) : bracketProbs eta K = (List.range (K + 1)).map (prob eta K) := by
  unfold bracketProbs
  simp only [List.map_map, sum_range_eq_total]
  rfl

theorem total_weight_pos {eta : ℕ} (K : ℕ) (he : 1 ≤ eta) :
    0 < total (bracketWeight eta K) (K + 1) :=
  total_pos (Nat.succ_pos K) (fun i hi => bracketWeight_pos he (by omega))

theorem prob_pos {eta K s : ℕ} (he : 1 ≤ eta) (hs : s < K + 1) : 0 < prob eta K s :=
  div_pos (bracketWeight_pos he (by omega)) (total_weight_pos K he)

theorem prob_total {eta : ℕ} (K : ℕ) (he : 1 ≤ eta) : total (prob eta K) (K + 1) = 1 := by
  have : prob eta K = fun i => bracketWeight eta K i / total (bracketWeight eta K) (K + 1) := rfl
  rw [this, total_div]
  exact div_self (ne_of_gt (total_weight_pos K he))

theorem countP_range_lt (s n : ℕ) (h : s ≤ n) (p : ℕ → Bool) (ht : ∀ i < s, p i = true)
    (hf : ∀ i, s ≤ i → i < n → p i = false) : (List.range n).countP p = s := by
  induction n with
  | zero => simp; omega
  | succ n ih =>
    rw [List.range_succ, List.countP_append]
    rcases Nat.lt_or_ge s (n + 1) with hlt | hge
    · rw [ih (by omega) (fun i h1 h2 => hf i h1 (by omega))]
      simp [hf n (by omega) (by omega)]
    · have hs : s = n + 1 := by omega
      subst hs
      have : (List.range n).countP p = n := by
        rw [List.countP_eq_length.mpr]
        · simp
        · intro a ha
          exact ht a (by have := List.mem_range.mp ha; omega)
      rw [this]
      simp [ht n (by omega)]

theorem bracketToRun_count {eta : ℕ} (K : ℕ) (he : 1 ≤ eta) (u : ℚ) :
    bracketToRun eta K u =
      (List.range (K + 1)).countP fun i => decide (total (prob eta K) (i + 1) ≤ u) := by
  unfold bracketToRun choice
  simp only [bracketProbs_eq, sum_range_eq_total, prob_total K he, div_one, List.length_map,
    List.length_range, List.countP_map]
  apply List.countP_congr
  intro i hi
  have : i < K + 1 := List.mem_range.mp hi
  simp only [Function.comp, ← List.map_take, List.take_range, sum_range_eq_total,
    Nat.min_eq_left (show i + 1 ≤ K + 1 by omega)]

/-- The bracket whose interval contains the drawn number. -/
theorem bracketToRun_of {eta K s : ℕ} (he : 1 ≤ eta) (hs : s < K + 1) {u : ℚ}
    (h1 : total (prob eta K) s ≤ u) (h2 : u < total (prob eta K) (s + 1)) :
    bracketToRun eta K u = s := by
  have hm := total_mono (f := prob eta K) (n := K + 1) (fun i hi => prob_pos he hi)
  rw [bracketToRun_count K he]
  apply countP_range_lt s (K + 1) (by omega)
  · intro i hi
    exact decide_eq_true (le_trans (hm s (by omega) (i + 1) (by omega)) h1)
  · intro i hi hn
    exact decide_eq_false (not_le.mpr (lt_of_lt_of_le h2 (hm (i + 1) (by omega) (s + 1) (by omega))))

theorem exists_interval (f : ℕ → ℚ) (u : ℚ) (h0 : 0 ≤ u) :
    ∀ n, u < total f n → ∃ s < n, total f s ≤ u ∧ u < total f (s + 1) := by
  intro n
  induction n with
  | zero => intro h; simp only [total] at h; exact absurd h (not_lt.mpr h0)
  | succ n ih =>
    intro h
    rcases lt_or_ge u (total f n) with h' | h'
    · obtain ⟨s, hs, h1, h2⟩ := ih h'
      exact ⟨s, by omega, h1, h2⟩
    · exact ⟨n, by omega, h', h⟩

/-! ## C164 -/

/-- **C164, a distribution**: there is one probability for each of the brackets `0, ..., max_rung`, all of
them are positive, and they sum up to one. -/
theorem C164_distribution (eta K : ℕ) (he : 1 ≤ eta) :
    (bracketProbs eta K).length = K + 1 ∧ (∀ p ∈ bracketProbs eta K, 0 < p) ∧
      (bracketProbs eta K).sum = 1 := by
  rw [bracketProbs_eq]
  refine ⟨by simp, ?_, by rw [sum_range_eq_total, prob_total K he]⟩
  intro p hp
  obtain ⟨s, hs, rfl⟩ := List.mem_map.mp hp
  exact prob_pos he (List.mem_range.mp hs)

/-- **C164, exists**: whatever number is drawn, the bracket exists. -/
theorem C164_bracket_exists (eta K : ℕ) (he : 1 ≤ eta) (u : ℚ) (h0 : 0 ≤ u) (h1 : u < 1) :
    bracketToRun eta K u ≤ K := by
  obtain ⟨s, hs, a, b⟩ := exists_interval (prob eta K) u h0 (K + 1) (by rw [prob_total K he]; exact h1)
  rw [bracketToRun_of he hs a b]
  omega

/-- **C164, shares**: bracket `s` is run for the numbers of an interval of `[0, 1)` whose length is its
probability. -/
theorem C164_share (eta K s : ℕ) (he : 1 ≤ eta) (hs : s ≤ K) :
    ∃ a p, (bracketProbs eta K)[s]? = some p ∧ 0 ≤ a ∧ a + p ≤ 1 ∧
      ∀ u, 0 ≤ u → u < 1 → (bracketToRun eta K u = s ↔ a ≤ u ∧ u < a + p) := by
  have hm := total_mono (f := prob eta K) (n := K + 1) (fun i hi => prob_pos he hi)
  refine ⟨total (prob eta K) s, prob eta K s, ?_, hm s (by omega) 0 (by omega), ?_, ?_⟩
  · rw [bracketProbs_eq, List.getElem?_map, List.getElem?_range (by omega)]
    rfl
  · have := hm (K + 1) le_rfl (s + 1) (by omega)
    rw [prob_total K he] at this
    exact this
  · intro u h0 h1
    constructor
    · intro h
      obtain ⟨s', hs', a, b⟩ :=
        exists_interval (prob eta K) u h0 (K + 1) (by rw [prob_total K he]; exact h1)
      rw [bracketToRun_of he hs' a b] at h
      subst h
      exact ⟨a, b⟩
    · rintro ⟨a, b⟩
      exact bracketToRun_of he (by omega) a b

/-- **C164, equal budgets**: a configuration of bracket `s` starts at `η ^ s` times the smallest budget, and
the bracket has `K - s + 1` rungs, each of which costs the same as its first (with `1 / η` of the
configurations at `η` times the budget). With these costs the expected budget of all brackets is the same. -/
theorem C164_equal_budget (eta K s t : ℕ) (he : 1 ≤ eta) (hs : s ≤ K) (ht : t ≤ K) (p q : ℚ)
    (hp : (bracketProbs eta K)[s]? = some p) (hq : (bracketProbs eta K)[t]? = some q) :
    p * ((eta : ℚ) ^ s * ((K : ℚ) - s + 1)) = q * ((eta : ℚ) ^ t * ((K : ℚ) - t + 1)) := by
  have key : ∀ s p, s ≤ K → (bracketProbs eta K)[s]? = some p →
      p * ((eta : ℚ) ^ s * ((K : ℚ) - s + 1)) =
        (eta : ℚ) ^ K * (K + 1) / total (bracketWeight eta K) (K + 1) := by
    intro s p hs hp
    rw [bracketProbs_eq, List.getElem?_map, List.getElem?_range (by omega)] at hp
    simp only [Option.map_some, Option.some.injEq] at hp
    subst hp
    have h2 : (s : ℚ) ≤ K := by exact_mod_cast hs
    have h3 : (K : ℚ) - s + 1 ≠ 0 := by linarith
    have h4 := ne_of_gt (total_weight_pos K he)
    have h5 : (eta : ℚ) ^ K = (eta : ℚ) ^ (K - s) * (eta : ℚ) ^ s := by
      rw [← pow_add, Nat.sub_add_cancel hs]
    unfold prob bracketWeight
    rw [h5]
    generalize hT : total (bracketWeight eta K) (K + 1) = T at h4 ⊢
    unfold bracketWeight at hT
    rw [hT]
    field_simp
  rw [key s p hs hp, key t q ht hq]

/-- **C164, order**: with `eta` at least two, a bracket that starts at a smaller budget is at least as
probable. -/
theorem C164_antitone (eta K s : ℕ) (he : 2 ≤ eta) (hs : s + 1 ≤ K) (p q : ℚ)
    (hp : (bracketProbs eta K)[s]? = some p) (hq : (bracketProbs eta K)[s + 1]? = some q) : q ≤ p := by
  have h := C164_equal_budget eta K s (s + 1) (by omega) (by omega) hs p q hp hq
  have hq0 : 0 < q := (C164_distribution eta K (by omega)).2.1 q (List.mem_of_getElem? hq)
  have h1 : (0 : ℚ) < (eta : ℚ) ^ s := by
    have : (0 : ℚ) < eta := by exact_mod_cast (by omega : 0 < eta)
    positivity
  have h2 : (s : ℚ) + 1 ≤ K := by exact_mod_cast hs
  have h3 : (2 : ℚ) ≤ eta := by exact_mod_cast he
  have h4 : p * ((K : ℚ) - s + 1) = q * (eta * ((K : ℚ) - s)) := by
    apply mul_left_cancel₀ (ne_of_gt h1)
    have e : ((s + 1 : ℕ) : ℚ) = (s : ℚ) + 1 := by push_cast; rfl
    rw [e, pow_succ] at h
    linear_combination h
  have h5 : (K : ℚ) - s + 1 ≤ eta * ((K : ℚ) - s) := by nlinarith
  have h6 : q * ((K : ℚ) - s + 1) ≤ p * ((K : ℚ) - s + 1) := by
    rw [h4]
    exact mul_le_mul_of_nonneg_left h5 hq0.le
  exact le_of_mul_le_mul_right h6 (by linarith)

/-- Three brackets with `eta = 3`: the weights are 9, 9/2 and 3. -/
example : bracketProbs 3 2 = [6 / 11, 3 / 11, 2 / 11] ∧ bracketToRun 3 2 (6 / 11) = 1 ∧
    bracketToRun 3 2 (1 / 2) = 0 ∧ bracketToRun 3 2 (10 / 11) = 2 := by
  decide +kernel

/-- The order needs `eta` to be at least two. -/
example : bracketProbs 1 1 = [1 / 3, 2 / 3] := by decide +kernel

end Neps.MF
