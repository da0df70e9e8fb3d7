import Verif.PriorBand.WeightProps
import Mathlib.Tactic.Linarith
import Mathlib.Tactic.FieldSimp
import Mathlib.Tactic.Ring
import Mathlib.Algebra.Order.BigOperators.Group.List

/-!
# What is drawn with the weights (C83)
-/

namespace Verif.PriorBand

open Neps Neps.MF

/-! ## Lemmas -/

theorem choiceGo_spec (ps : List ℝ) : ∀ (u acc : ℝ) (i : ℕ), acc ≤ u → u < acc + ps.sum →
    i ≤ choiceGo u acc ps i ∧ choiceGo u acc ps i < i + ps.length ∧
    acc + (ps.take (choiceGo u acc ps i - i)).sum ≤ u ∧
    u < acc + (ps.take (choiceGo u acc ps i - i + 1)).sum := by
  induction ps with
  | nil => intro u acc i h1 h2; simp at h2; linarith
  | cons p ps ih =>
    intro u acc i h1 h2
    rw [List.sum_cons] at h2
    simp only [choiceGo]
    split_ifs with h
    · refine ⟨le_refl _, by simp, by simpa using h1, by simpa using h⟩
    · obtain ⟨a1, a2, a3, a4⟩ := ih u (acc + p) (i + 1) (by linarith) (by linarith)
      set k := choiceGo u (acc + p) ps (i + 1) with hk
      refine ⟨by omega, by simp only [List.length_cons]; omega, ?_, ?_⟩
      · rw [show k - i = (k - (i + 1)) + 1 by omega, List.take_succ_cons, List.sum_cons]
        linarith
      · rw [show k - i + 1 = (k - (i + 1) + 1) + 1 by omega, List.take_succ_cons, List.sum_cons]
        linarith

theorem take_sum_mono (ps : List ℝ) (h : ∀ x ∈ ps, 0 ≤ x) (a b : ℕ) (hab : a ≤ b) :
    (ps.take a).sum ≤ (ps.take b).sum := by
  have e : ps.take b = ps.take a ++ (ps.take b).drop a := by
    conv_lhs => rw [← List.take_append_drop a (ps.take b), List.take_take, min_eq_left hab]
  rw [e, List.sum_append]
  have : 0 ≤ ((ps.take b).drop a).sum := by
    apply List.sum_nonneg
    intro x hx
    exact h x (List.mem_of_mem_take (List.mem_of_mem_drop hx))
  linarith

/-! ## C83 -/

/-- **C83, choice by weights**: entry `k` is drawn exactly if the uniform number lies in the `k`-th
of the consecutive half-open intervals whose lengths are the weights. -/
theorem C83_choice_iff (p : List ℝ) (h0 : ∀ x ∈ p, 0 ≤ x) (h1 : p.sum = 1) (u : ℝ) (hu0 : 0 ≤ u)
    (hu1 : u < 1) (k : ℕ) :
    choice p u = some k ↔
      k < p.length ∧ (p.take k).sum ≤ u ∧ u < (p.take (k + 1)).sum := by
  unfold choice
  rw [if_pos ⟨h0, h1⟩, Option.some.injEq]
  obtain ⟨-, a2, a3, a4⟩ := choiceGo_spec p u 0 0 hu0 (by rw [h1]; linarith)
  simp only [Nat.sub_zero, zero_add] at a2 a3 a4
  constructor
  · rintro rfl; exact ⟨a2, a3, a4⟩
  · rintro ⟨b2, b3, b4⟩
    rcases lt_trichotomy (choiceGo u 0 p 0) k with h | h | h
    · have := take_sum_mono p h0 (choiceGo u 0 p 0 + 1) k (by omega)
      linarith
    · exact h
    · have := take_sum_mono p h0 (k + 1) (choiceGo u 0 p 0) (by omega)
      linarith

/-- **C83, total**: with weights that are a distribution something is drawn. -/
theorem C83_choice_total (p : List ℝ) (h0 : ∀ x ∈ p, 0 ≤ x) (h1 : p.sum = 1) (u : ℝ)
    (hu0 : 0 ≤ u) (hu1 : u < 1) : ∃ k < p.length, choice p u = some k := by
  have a := choiceGo_spec p u 0 0 hu0 (by rw [h1]; linarith)
  refine ⟨choiceGo u 0 p 0, by simpa using a.2.1, ?_⟩
  unfold choice
  rw [if_pos ⟨h0, h1⟩]

/-- **C83**: an entry of weight zero is never drawn. -/
theorem C83_zero_never (p : List ℝ) (u : ℝ) (hu0 : 0 ≤ u) (hu1 : u < 1) (k : ℕ)
    (hk : p[k]? = some 0) : choice p u ≠ some k := by
  intro h
  by_cases hv : (∀ x ∈ p, 0 ≤ x) ∧ p.sum = 1
  · obtain ⟨h1, h2, h3⟩ := (C83_choice_iff p hv.1 hv.2 u hu0 hu1 k).mp h
    rw [List.take_add_one, hk] at h3
    simp at h3
    linarith
  · unfold choice at h
    rw [if_neg hv] at h
    simp at h

/-- **C83, the policies**: of the numbers in `[0, 1)`, exactly those below the weight of the
incumbent lead to a sample around the incumbent, the next ones, as many as the weight of the prior,
to a sample from the prior, and the rest to a random sample. -/
theorem C83_policy (w : Weights) (h : w.Distribution) (u : ℝ) (hu0 : 0 ≤ u) (hu1 : u < 1) :
    (choosePolicy w u = some .inc ↔ u < w.inc) ∧
    (choosePolicy w u = some .prior ↔ w.inc ≤ u ∧ u < w.inc + w.prior) ∧
    (choosePolicy w u = some .random ↔ w.inc + w.prior ≤ u) := by
  have h0 : ∀ x ∈ [w.inc, w.prior, w.random], 0 ≤ x := by
    simp [h.prior, h.inc, h.random]
  have hs : [w.inc, w.prior, w.random].sum = 1 := by
    have := h.sum
    simp only [List.sum_cons, List.sum_nil]; linarith
  have hs' := h.sum
  obtain ⟨k, hk, hc⟩ := C83_choice_total _ h0 hs u hu0 hu1
  have hi := (C83_choice_iff _ h0 hs u hu0 hu1 k).mp hc
  have hp := h.prior
  have hin := h.inc
  have hra := h.random
  unfold choosePolicy
  rw [hc]
  simp only [List.length_cons, List.length_nil] at hk
  obtain ⟨-, i1, i2⟩ := hi
  obtain rfl | rfl | rfl : k = 0 ∨ k = 1 ∨ k = 2 := by omega
  · simp at i1 i2
    refine ⟨iff_of_true rfl i2, iff_of_false (by simp) ?_, iff_of_false (by simp) ?_⟩
    · rintro ⟨h1, _⟩; linarith
    · intro h1; linarith
  · simp at i1 i2
    refine ⟨iff_of_false (by simp) ?_, iff_of_true rfl ⟨i1, i2⟩, iff_of_false (by simp) ?_⟩
    · intro h1; linarith
    · intro h1; linarith
  · simp at i1 i2
    refine ⟨iff_of_false (by simp) ?_, iff_of_false (by simp) ?_, iff_of_true rfl i1⟩
    · intro h1; linarith
    · rintro ⟨_, h1⟩; linarith

/-- **C83, before activation**: until incumbent sampling is active no draw leads to a sample around
the incumbent. -/
theorem C83_inactive_never_inc (first : Bracket ℝ) (v : View) (hv : v.Sane) (rung : ℕ)
    (w : Weights) (hw : samplingWeights first v rung = some w) (ha : ¬ activateInc first v) (u : ℝ) (hu0 : 0 ≤ u)
    (hu1 : u < 1) : choosePolicy w u ≠ some .inc := by
  have hz : w.inc = 0 := (C42_inactive first v hv rung w hw ha).1
  intro h
  unfold choosePolicy at h
  cases hc : choice [w.inc, w.prior, w.random] u with
  | none => simp [hc] at h
  | some k =>
    rw [hc] at h
    have : k = 0 := by
      simp only [Option.bind_eq_bind, Option.bind_some] at h
      rcases k with _ | _ | _ | k <;> simp at h ⊢
    subst this
    exact C83_zero_never _ u hu0 hu1 0 (by simp [hz]) hc

/-- **C83, crossover**: if the incumbent is drawn, the weight of the random policy is not one, so
that the crossover does not divide by zero. -/
theorem C83_crossover_defined (w : Weights) (h : w.Distribution) (u : ℝ) (hu0 : 0 ≤ u) (hu1 : u < 1)
    (hc : choosePolicy w u = some .inc) : 0 < w.inc ∧ w.random < 1 := by
  have h1 := (C83_policy w h u hu0 hu1).1.mp hc
  have h2 := h.sum
  have h3 := h.prior
  exact ⟨by linarith, by linarith⟩

/-- **C83, crossover**: the probabilities with which the partner of a crossover is drawn from the
prior or at random are probabilities that add up to one. -/
theorem C83_crossover (w : Weights) :
    (∀ x ∈ crossoverProbs w, 0 ≤ x ∧ x ≤ 1) ∧ (crossoverProbs w).sum = 1 := by
  have hc : ∀ x, 0 ≤ clip01 x ∧ clip01 x ≤ 1 := by
    intro x
    unfold clip01
    exact ⟨le_min (le_max_right _ _) (by norm_num), min_le_right _ _⟩
  obtain ⟨a1, a2⟩ := hc (w.prior / (1 - w.random))
  obtain ⟨b1, b2⟩ := hc (w.inc / (1 - w.random))
  have hd : |clip01 (w.prior / (1 - w.random)) - clip01 (w.inc / (1 - w.random))| ≤ 1 := by
    rw [abs_le]; constructor <;> linarith
  have hd0 := abs_nonneg (clip01 (w.prior / (1 - w.random)) - clip01 (w.inc / (1 - w.random)))
  unfold crossoverProbs
  refine ⟨?_, by simp⟩
  intro x hx
  simp only [List.mem_cons, List.not_mem_nil, or_false] at hx
  rcases hx with rfl | rfl
  · exact ⟨by linarith, by linarith⟩
  · exact ⟨hd0, hd⟩

/-- **C83, crossover**: the partner is drawn from the prior with probability one exactly if the
prior and the incumbent have the same weight. -/
theorem C83_crossover_prior (w : Weights) (h : w.Distribution) (hr : w.random < 1) :
    crossoverProbs w = [1 - |w.prior - w.inc| / (w.prior + w.inc),
      |w.prior - w.inc| / (w.prior + w.inc)] := by
  have hs := h.sum
  have hp := h.prior
  have hi := h.inc
  have hrest : 1 - w.random = w.prior + w.inc := by linarith
  have hpos : 0 < w.prior + w.inc := by linarith
  have c1 : clip01 (w.prior / (w.prior + w.inc)) = w.prior / (w.prior + w.inc) := by
    unfold clip01
    rw [max_eq_left (div_nonneg hp hpos.le), min_eq_left]
    rw [div_le_one hpos]; linarith
  have c2 : clip01 (w.inc / (w.prior + w.inc)) = w.inc / (w.prior + w.inc) := by
    unfold clip01
    rw [max_eq_left (div_nonneg hi hpos.le), min_eq_left]
    rw [div_le_one hpos]; linarith
  unfold crossoverProbs
  simp only [hrest, c1, c2]
  rw [← sub_div, abs_div, abs_of_pos hpos]

theorem raw_pos (eta K s : ℕ) (he : 1 ≤ eta) :
    0 < (eta : ℝ) ^ (K - s) * ((K : ℝ) + 1) / (((K - s : ℕ) : ℝ) + 1) := by
  have : (0 : ℝ) < eta := by exact_mod_cast he
  positivity

theorem list_sum_div (l : List ℝ) (c : ℝ) : (l.map (· / c)).sum = l.sum / c := by
  induction l with
  | nil => simp
  | cons x l ih => simp [ih, add_div]

theorem rawBrackets_sum_pos (eta K : ℕ) (he : 1 ≤ eta) :
    0 < ((List.range (K + 1)).map fun s =>
      (eta : ℝ) ^ (K - s) * ((K : ℝ) + 1) / (((K - s : ℕ) : ℝ) + 1)).sum := by
  rw [List.range_succ_eq_map, List.map_cons, List.sum_cons]
  have := raw_pos eta K 0 he
  have h2 : 0 ≤ ((List.map Nat.succ (List.range K)).map fun s =>
      (eta : ℝ) ^ (K - s) * ((K : ℝ) + 1) / (((K - s : ℕ) : ℝ) + 1)).sum := by
    apply List.sum_nonneg
    intro x hx
    obtain ⟨s, _, rfl⟩ := List.mem_map.mp hx
    exact (raw_pos eta K s he).le
  linarith

/-- **C83, asynchronous brackets**: the probabilities of the brackets `0, ..., K` are positive and
add up to one. -/
theorem C83_brackets (eta K : ℕ) (he : 1 ≤ eta) :
    (bracketProbs eta K).length = K + 1 ∧ (∀ x ∈ bracketProbs eta K, 0 < x) ∧
      (bracketProbs eta K).sum = 1 := by
  have hp := rawBrackets_sum_pos eta K he
  refine ⟨by simp [bracketProbs], ?_, ?_⟩
  · intro x hx
    unfold bracketProbs at hx
    obtain ⟨y, hy, rfl⟩ := List.mem_map.mp hx
    obtain ⟨s, _, rfl⟩ := List.mem_map.mp hy
    exact div_pos (raw_pos eta K s he) hp
  · unfold bracketProbs
    simp only
    rw [list_sum_div, div_self hp.ne']

/-- **C83, asynchronous brackets**: with a reduction factor of at least two a bracket that starts
higher is not drawn more often; the ratio of neighbouring brackets is
`eta (K - s) / (K - s + 1)`. -/
theorem C83_brackets_ratio (eta K : ℕ) (he : 1 ≤ eta) (s : ℕ) (hs : s < K) (x y : ℝ)
    (hx : (bracketProbs eta K)[s]? = some x) (hy : (bracketProbs eta K)[s + 1]? = some y) :
    x = y * ((eta : ℝ) * ((K - s : ℕ) : ℝ) / (((K - s : ℕ) : ℝ) + 1)) ∧ (2 ≤ eta → y ≤ x) := by
  have hpos := rawBrackets_sum_pos eta K he
  have hy0 : 0 < y := (C83_brackets eta K he).2.1 y (List.mem_of_getElem? hy)
  unfold bracketProbs at hx hy
  simp only [List.getElem?_map, List.getElem?_range (show s < K + 1 by omega),
    List.getElem?_range (show s + 1 < K + 1 by omega), Option.map_some, Option.some.injEq] at hx hy
  set S := ((List.range (K + 1)).map fun s =>
      (eta : ℝ) ^ (K - s) * ((K : ℝ) + 1) / (((K - s : ℕ) : ℝ) + 1)).sum with hS
  obtain ⟨d, hd⟩ : ∃ d, K - s = d + 1 := ⟨K - s - 1, by omega⟩
  have hd' : K - (s + 1) = d := by omega
  have heq : x = y * ((eta : ℝ) * ((K - s : ℕ) : ℝ) / (((K - s : ℕ) : ℝ) + 1)) := by
    rw [← hx, ← hy, hd, hd']
    have e1 : ((d : ℝ) + 1) ≠ 0 := by positivity
    have e2 : (((d + 1 : ℕ) : ℝ) + 1) ≠ 0 := by positivity
    have e3 : S ≠ 0 := hpos.ne'
    push_cast at e2 ⊢
    field_simp
    rw [pow_succ]
  refine ⟨heq, fun h2 => ?_⟩
  rw [heq]
  have h2' : (2 : ℝ) ≤ eta := by exact_mod_cast h2
  have : (1 : ℝ) ≤ (eta : ℝ) * ((K - s : ℕ) : ℝ) / (((K - s : ℕ) : ℝ) + 1) := by
    rw [hd, le_div_iff₀ (by positivity)]
    push_cast
    have : (0 : ℝ) ≤ d := Nat.cast_nonneg d
    nlinarith
  nlinarith

/-! ### Non-vacuity -/

example : choosePolicy ⟨1 / 4, 1 / 4, 1 / 2⟩ (3 / 8) = some .prior :=
  ((C83_policy ⟨1 / 4, 1 / 4, 1 / 2⟩ ⟨by norm_num, by norm_num, by norm_num, by norm_num⟩ (3 / 8)
    (by norm_num) (by norm_num)).2.1).mpr ⟨by norm_num, by norm_num⟩

example : (bracketProbs 2 1) = [2 / 4, 2 / 4] := by
  simp [bracketProbs, List.range_succ]
  norm_num

example : (bracketProbs 3 1)[0]? = some (3 / 5) ∧ (bracketProbs 3 1)[1]? = some (2 / 5) := by
  simp [bracketProbs, List.range_succ]
  norm_num

end Verif.PriorBand
