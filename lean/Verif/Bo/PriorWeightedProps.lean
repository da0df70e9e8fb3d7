import Verif.Bo.PriorWeighted
import Mathlib.Analysis.SpecialFunctions.Pow.Continuity
import Mathlib.Topology.Algebra.Order.LiminfLimsup

/-!
# C157: an acquisition function weighted with the prior prefers what the prior prefers, ever less so
-/

namespace Verif.Bo.Weigh

open Filter Topology

theorem get_eval (log : Bool) (beta t : ℝ) (l : List Cand) (i : ℕ) :
    (eval log beta t l)[i]? = l[i]?.map (weigh log beta t (shift l)) := by
  simp [eval]

theorem foldl_min_le' (l : List ℝ) : ∀ a, ∀ b ∈ a :: l, l.foldl min a ≤ b := by
  induction l with
  | nil => simp
  | cons c l ih =>
    intro a b hb
    rw [List.foldl_cons]
    have h := ih (min a c)
    rcases List.mem_cons.mp hb with rfl | hb
    · exact (h _ List.mem_cons_self).trans (min_le_left _ _)
    · rcases List.mem_cons.mp hb with rfl | hb
      · exact (h _ List.mem_cons_self).trans (min_le_right _ _)
      · exact h _ (List.mem_cons_of_mem _ hb)

theorem least_le {l : List Cand} {c : Cand} (h : c ∈ l) : least l ≤ c.acq := by
  cases l with
  | nil => simp at h
  | cons a l =>
    refine foldl_min_le' _ _ _ ?_
    rcases List.mem_cons.mp h with rfl | h
    · exact List.mem_cons_self
    · exact List.mem_cons_of_mem _ (List.mem_map_of_mem h)

theorem shift_nonneg {l : List Cand} {c : Cand} (h : c ∈ l) : 0 ≤ c.acq + shift l := by
  have := least_le h
  unfold shift
  split
  · rename_i h0
    rw [abs_of_neg h0]
    linarith
  · rename_i h0
    linarith

theorem mem_of_get {l : List Cand} {i : ℕ} {c : Cand} (h : l[i]? = some c) : c ∈ l :=
  List.mem_of_getElem? h

/-- C157: of two candidates with the same acquisition value, not negative, the one that the prior finds
more plausible is not valued less, whatever the other candidates are, unless one of the densities is
exactly one. -/
theorem C157_prefers_partial {beta t : ℝ} (hb : 0 ≤ beta) (ht : 0 < t) (l : List Cand) (i j : ℕ)
    (a p q : ℝ) (ha : 0 ≤ a) (hi : l[i]? = some ⟨a, p⟩) (hj : l[j]? = some ⟨a, q⟩) (hp : 0 ≤ p)
    (hpq : p ≤ q) (hp1 : p ≠ 1) (hq1 : q ≠ 1) :
    ∃ v w, (eval false beta t l)[i]? = some v ∧ (eval false beta t l)[j]? = some w ∧ v ≤ w := by
  rw [get_eval, get_eval, hi, hj]
  refine ⟨_, _, rfl, rfl, ?_⟩
  simp only [weigh, ne_eq, hp1, hq1, not_false_eq_true, if_true, Bool.false_eq_true, if_false]
  exact mul_le_mul_of_nonneg_left
    (Real.rpow_le_rpow (by linarith) (by linarith) (div_nonneg hb ht.le)) ha

/-- C157, with `log=True`: the same, for acquisition values of any sign and logarithms of densities. -/
theorem C157_prefers_log_partial {beta t : ℝ} (hb : 0 ≤ beta) (ht : 0 < t) (l : List Cand) (i j : ℕ)
    (a p q : ℝ) (hi : l[i]? = some ⟨a, p⟩) (hj : l[j]? = some ⟨a, q⟩)
    (hpq : p ≤ q) (hp1 : p ≠ 1) (hq1 : q ≠ 1) :
    ∃ v w, (eval true beta t l)[i]? = some v ∧ (eval true beta t l)[j]? = some w ∧ v ≤ w := by
  rw [get_eval, get_eval, hi, hj]
  refine ⟨_, _, rfl, rfl, ?_⟩
  simp only [weigh, ne_eq, hp1, hq1, not_false_eq_true, if_true]
  have := mul_le_mul_of_nonneg_left hpq (div_nonneg hb ht.le)
  linarith

/-- C157: of two candidates with the same density the one with the greater acquisition value is valued
more. -/
theorem C157_better {beta t : ℝ} (l : List Cand) (i j : ℕ) (a b p : ℝ)
    (hi : l[i]? = some ⟨a, p⟩) (hj : l[j]? = some ⟨b, p⟩) (hp : 0 ≤ p) (hab : a < b) :
    ∃ v w, (eval false beta t l)[i]? = some v ∧ (eval false beta t l)[j]? = some w ∧ v < w := by
  rw [get_eval, get_eval, hi, hj]
  refine ⟨_, _, rfl, rfl, ?_⟩
  simp only [weigh, Bool.false_eq_true, if_false]
  split
  · exact mul_lt_mul_of_pos_right hab (Real.rpow_pos_of_pos (by linarith) _)
  · exact hab

/-- C157, with `log=True`: the same, for acquisition values of any sign. -/
theorem C157_better_log {beta t : ℝ} (l : List Cand) (i j : ℕ) (a b p : ℝ)
    (hi : l[i]? = some ⟨a, p⟩) (hj : l[j]? = some ⟨b, p⟩) (hab : a < b) :
    ∃ v w, (eval true beta t l)[i]? = some v ∧ (eval true beta t l)[j]? = some w ∧ v < w := by
  rw [get_eval, get_eval, hi, hj]
  refine ⟨_, _, rfl, rfl, ?_⟩
  have h1 := shift_nonneg (mem_of_get hi)
  simp only at h1
  simp only [weigh, if_true]
  split
  · have := Real.log_lt_log (x := a + shift l + 1e-12) (y := b + shift l + 1e-12) (by linarith)
      (by linarith)
    linarith
  · exact hab

theorem tendsto_weigh (beta a p : ℝ) (hp : 0 ≤ p) (s : ℝ) :
    Tendsto (fun t => weigh false beta t s ⟨a, p⟩) atTop (𝓝 a) := by
  simp only [weigh, Bool.false_eq_true, if_false]
  split
  · have h1 : Tendsto (fun t : ℝ => beta / t) atTop (𝓝 0) :=
      tendsto_const_nhds.div_atTop tendsto_id
    have h2 := ((tendsto_const_nhds (x := p + 1e-12)).rpow h1
      (Or.inl (by linarith))).const_mul a
    simpa using h2
  · exact tendsto_const_nhds

/-- C157: the prior fades out. Of two candidates with different acquisition values the better one is
valued more from some number of observations on, whatever the prior says. -/
theorem C157_fades (beta : ℝ) (l : List Cand) (i j : ℕ) (a b p q : ℝ)
    (hi : l[i]? = some ⟨a, p⟩) (hj : l[j]? = some ⟨b, q⟩) (hp : 0 ≤ p) (hq : 0 ≤ q) (hab : a < b) :
    ∃ T : ℝ, ∀ t, T ≤ t → ∃ v w, (eval false beta t l)[i]? = some v ∧
      (eval false beta t l)[j]? = some w ∧ v < w := by
  obtain ⟨T, hT⟩ := eventually_atTop.mp
    ((tendsto_weigh beta a p hp (shift l)).eventually_lt (tendsto_weigh beta b q hq (shift l)) hab)
  refine ⟨T, fun t ht => ?_⟩
  rw [get_eval, get_eval, hi, hj]
  exact ⟨_, _, rfl, rfl, hT t ht⟩

/-- C157, with `log=True`, for log-densities other than one. -/
theorem C157_fades_log_partial (beta : ℝ) (l : List Cand) (i j : ℕ) (a b p q : ℝ)
    (hi : l[i]? = some ⟨a, p⟩) (hj : l[j]? = some ⟨b, q⟩) (hp : p ≠ 1) (hq : q ≠ 1) (hab : a < b) :
    ∃ T : ℝ, ∀ t, T ≤ t → ∃ v w, (eval true beta t l)[i]? = some v ∧
      (eval true beta t l)[j]? = some w ∧ v < w := by
  have h1 := shift_nonneg (mem_of_get hi)
  simp only at h1
  have lim : ∀ c r : ℝ, Tendsto (fun t : ℝ => Real.log c + beta / t * r) atTop (𝓝 (Real.log c)) := by
    intro c r
    have h1 : Tendsto (fun t : ℝ => beta / t) atTop (𝓝 0) :=
      tendsto_const_nhds.div_atTop tendsto_id
    simpa using (h1.mul_const r).const_add (Real.log c)
  obtain ⟨T, hT⟩ := eventually_atTop.mp
    ((lim (a + shift l + 1e-12) p).eventually_lt (lim (b + shift l + 1e-12) q)
      (Real.log_lt_log (by linarith) (by linarith)))
  refine ⟨T, fun t ht => ?_⟩
  rw [get_eval, get_eval, hi, hj]
  refine ⟨_, _, rfl, rfl, ?_⟩
  simp only [weigh, ne_eq, hp, hq, not_false_eq_true, if_true]
  exact hT t ht

/-- C157: without a fidelity the weight fades with the number of observed configurations. -/
theorem C157_count (x : List Seen) (hx : x ≠ []) (h : ∀ c ∈ x, c.fidelity = none) :
    decay none x = some (x.length : ℝ) := by
  cases x with
  | nil => exact absurd rfl hx
  | cons c l => simp [decay, h c List.mem_cons_self]

/-- C157: with a fidelity, with the number of configurations observed at the maximal fidelity. -/
theorem C157_count_fidelity (l : List (ℝ × ℝ)) (hl : l ≠ []) :
    decay none (l.map fun f => ⟨some f⟩) =
      some (open Classical in ((l.filter fun f => f.2 ≤ f.1).length : ℝ)) := by
  have key : ∀ l : List (ℝ × ℝ), (((l.map fun f => (⟨some f⟩ : Seen)).mapM fun e : Seen =>
      e.fidelity.map fun f => open Classical in if f.1 ≥ f.2 then (1 : ℝ) else 0).map List.sum) =
      some (open Classical in ((l.filter fun f => f.2 ≤ f.1).length : ℝ)) := by
    intro l
    induction l with
    | nil => simp
    | cons f l ih =>
      rw [Option.map_eq_some_iff] at ih
      obtain ⟨r, h1, h2⟩ := ih
      rw [List.map_cons, List.mapM_cons, h1]
      by_cases hf : f.2 ≤ f.1
      · simp [hf, h2, add_comm]
      · simp [hf, h2]
  cases l with
  | nil => exact absurd rfl hl
  | cons f l => simpa [decay] using key (f :: l)

/-- C157 fails where the density is exactly one: the candidate with the greater density is valued less,
as only the other one is weighted. -/
theorem C157_one_fails : ∃ p q : ℝ, 0 ≤ p ∧ p < q ∧
    ∃ v w, eval false 10 1 [⟨1, p⟩, ⟨1, q⟩] = [v, w] ∧ w < v := by
  refine ⟨1 - 1e-13, 1, by norm_num, by norm_num, _, _, rfl, ?_⟩
  have h : (1 - 1e-13 : ℝ) ≠ 1 := by norm_num
  simp only [weigh, ne_eq, h, not_false_eq_true, if_true, not_true_eq_false, if_false,
    Bool.false_eq_true, one_mul]
  exact Real.one_lt_rpow (by norm_num) (by norm_num)

/-- C157 fails for negative acquisition values, which a confidence bound can have, without `log`: the
more plausible of two candidates with the same value is valued less. -/
theorem C157_negative_fails : ∃ p q : ℝ, 0 ≤ p ∧ p < q ∧
    ∃ v w, eval false 10 1 [⟨-1, p⟩, ⟨-1, q⟩] = [v, w] ∧ w < v := by
  refine ⟨2, 3, by norm_num, by norm_num, _, _, rfl, ?_⟩
  have h2 : (2 : ℝ) ≠ 1 := by norm_num
  have h3 : (3 : ℝ) ≠ 1 := by norm_num
  simp only [weigh, ne_eq, h2, h3, not_false_eq_true, if_true, if_false, Bool.false_eq_true]
  have := Real.rpow_lt_rpow (x := 2 + 1e-12) (y := 3 + 1e-12) (z := 10 / 1) (by norm_num)
    (by norm_num) (by norm_num)
  linarith

/-- C157 fails with `log=True` where the logarithm of the density is exactly one: the value is left as it
is, not even its logarithm is taken, and the better candidate is valued less however many observations
there are. -/
theorem C157_log_one_fails (t : ℝ) : ∃ v w,
    eval true 10 t [⟨1, 0⟩, ⟨1 / 10, 1⟩] = [v, w] ∧ v < w := by
  refine ⟨_, _, rfl, ?_⟩
  have hs : shift [⟨1, 0⟩, ⟨1 / 10, 1⟩] = 0 := by
    unfold shift least
    norm_num
  rw [hs]
  simp only [weigh, ne_eq, zero_ne_one, not_false_eq_true, if_true, not_true_eq_false, if_false,
    mul_zero, add_zero]
  have := Real.log_le_sub_one_of_pos (x := 1 + 1e-12) (by norm_num)
  linarith

/-- Non-vacuity. -/
example : ∃ v w, (eval false 10 3 [⟨1, 2⟩, ⟨5, 1 / 2⟩, ⟨1, 4⟩])[0]? = some v ∧
    (eval false 10 3 [⟨1, 2⟩, ⟨5, 1 / 2⟩, ⟨1, 4⟩])[2]? = some w ∧ v ≤ w :=
  C157_prefers_partial (by norm_num) (by norm_num) _ 0 2 1 2 4 (by norm_num) rfl rfl (by norm_num)
    (by norm_num) (by norm_num) (by norm_num)

example : ∃ T : ℝ, ∀ t, T ≤ t → ∃ v w, (eval true 10 t [⟨-2, 3⟩, ⟨1, -4⟩])[0]? = some v ∧
    (eval true 10 t [⟨-2, 3⟩, ⟨1, -4⟩])[1]? = some w ∧ v < w :=
  C157_fades_log_partial 10 _ 0 1 (-2) 1 3 (-4) rfl rfl (by norm_num) (by norm_num) (by norm_num)

end Verif.Bo.Weigh
