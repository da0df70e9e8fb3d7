import Verif.MF.Occupancy

/-! # The budget test that tells whether a bracket is finished -/

namespace Neps.MF

variable {P F : Type}

theorem sum_map_add' (l : List Nat) (f g : Nat → Nat) :
    (l.map (fun r => f r + g r)).sum = (l.map f).sum + (l.map g).sum := by
  induction l with
  | nil => rfl
  | cons a l ih => simp only [List.map_cons, List.sum_cons, ih]; omega

theorem sum_map_zero (l : List Nat) (f : Nat → Nat) (h : ∀ r ∈ l, f r = 0) : (l.map f).sum = 0 := by
  induction l with
  | nil => rfl
  | cons a l ih =>
    simp only [List.map_cons, List.sum_cons, h a (by simp), ih (fun r hr => h r (by simp [hr]))]

/-- A sum with a single term. -/
theorem sum_single (l : List Nat) (hl : l.Nodup) (x : Nat) (g : Nat → Nat) :
    (l.map (fun r => if x = r then g r else 0)).sum = if x ∈ l then g x else 0 := by
  induction l with
  | nil => simp
  | cons a l ih =>
    rw [List.nodup_cons] at hl
    simp only [List.map_cons, List.sum_cons, ih hl.2]
    by_cases hx : x = a
    · subst hx
      simp [hl.1]
    · simp [hx]

/-- The terms up to `x`. -/
theorem sum_prefix (m : Nat) : ∀ (n x : Nat), m ≤ x → x < m + n →
    ((List.range' m n).map (fun j => if j ≤ x then j else 0)).sum = (List.range' m (x + 1 - m)).sum := by
  intro n
  induction n with
  | zero => intro x h1 h2; omega
  | succ n ih =>
    intro x h1 h2
    rw [List.range'_concat, List.map_append, List.sum_append]
    simp only [List.map_cons, List.map_nil, List.sum_cons, List.sum_nil, Nat.one_mul, Nat.add_zero]
    by_cases hx : x = m + n
    · subst hx
      rw [if_pos (Nat.le_refl _)]
      have h3 : m + n + 1 - m = n + 1 := by omega
      rw [h3, List.range'_concat, List.sum_append]
      simp only [List.sum_cons, List.sum_nil, Nat.one_mul, Nat.add_zero]
      congr 1
      congr 1
      conv_rhs => rw [← List.map_id (List.range' m n)]
      apply List.map_congr_left
      intro j hj
      rw [List.mem_range'_1] at hj
      rw [if_pos (by omega)]; rfl
    · rw [if_neg (by omega), ih x h1 (by omega)]; omega

/-- Abel summation: every configuration counts once for each rung it passed. -/
theorem budgetUsed_eq (b : Bracket F) (rungs : List Nat) :
    budgetUsed b rungs = ((List.range' b.minR (b.maxR + 1 - b.minR)).map (fun j =>
      rungs.countP (fun x => decide (j ≤ x ∧ x ≤ b.maxR)) * j)).sum := by
  simp only [budgetUsed, countAt]
  induction rungs with
  | nil => simp
  | cons x l ih =>
    have e1 : ∀ r, (x :: l).count r * (List.range' b.minR (r + 1 - b.minR)).sum
        = l.count r * (List.range' b.minR (r + 1 - b.minR)).sum
          + (if x = r then (List.range' b.minR (r + 1 - b.minR)).sum else 0) := by
      intro r
      rw [List.count_cons]
      by_cases h : x = r
      · simp [h, Nat.add_mul]
      · simp [h]
    have e2 : ∀ j, (x :: l).countP (fun x => decide (j ≤ x ∧ x ≤ b.maxR)) * j
        = l.countP (fun x => decide (j ≤ x ∧ x ≤ b.maxR)) * j
          + (if j ≤ x ∧ x ≤ b.maxR then j else 0) := by
      intro j
      rw [List.countP_cons]
      by_cases h : j ≤ x ∧ x ≤ b.maxR
      · rw [if_pos (decide_eq_true h), if_pos h, Nat.add_mul]; omega
      · rw [if_neg (by rw [decide_eq_true_eq]; exact h), if_neg h]; simp
    simp only [e1, e2, sum_map_add', ih]
    congr 1
    rw [sum_single _ List.nodup_range']
    simp only [List.mem_range'_1]
    by_cases hx : b.minR ≤ x ∧ x < b.minR + (b.maxR + 1 - b.minR)
    · rw [if_pos hx, ← sum_prefix _ _ _ hx.1 hx.2]
      congr 1
      apply List.map_congr_left
      intro j _
      have : x ≤ b.maxR := by omega
      simp [this]
    · rw [if_neg hx]
      symm
      apply sum_map_zero
      intro j hj
      rw [List.mem_range'_1] at hj
      rw [if_neg (by omega)]

theorem trace_sum (b : Bracket F) :
    (rungTrace b).sum = ((List.range' b.minR (b.maxR + 1 - b.minR)).map (fun j => b.cap j * j)).sum := by
  simp only [rungTrace]
  induction List.range' b.minR (b.maxR + 1 - b.minR) with
  | nil => rfl
  | cons a l ih =>
    simp only [List.flatMap_cons, List.sum_append, List.map_cons, List.sum_cons, ih]
    simp

theorem weighted_lt (l : List Nat) (q c : Nat → Nat) (h : ∀ j ∈ l, q j ≤ c j) :
    ((l.map (fun j => q j * j)).sum < (l.map (fun j => c j * j)).sum ↔
      ∃ j ∈ l, 0 < j ∧ q j < c j) ∧
    (l.map (fun j => q j * j)).sum ≤ (l.map (fun j => c j * j)).sum := by
  induction l with
  | nil => simp
  | cons a l ih =>
    obtain ⟨ih1, ih2⟩ := ih (fun j hj => h j (by simp [hj]))
    have ha := h a (by simp)
    have hmul : q a * a ≤ c a * a := Nat.mul_le_mul_right _ ha
    simp only [List.map_cons, List.sum_cons]
    refine ⟨⟨?_, ?_⟩, by omega⟩
    · intro hlt
      by_cases hs : (l.map (fun j => q j * j)).sum < (l.map (fun j => c j * j)).sum
      · obtain ⟨j, hj, hj'⟩ := ih1.1 hs
        exact ⟨j, by simp [hj], hj'⟩
      · refine ⟨a, by simp, ?_⟩
        have hlt' : q a * a < c a * a := by omega
        refine ⟨?_, ?_⟩
        · by_contra h0
          have : a = 0 := by omega
          subst this
          simp at hlt'
        · exact Nat.lt_of_mul_lt_mul_right hlt'
    · rintro ⟨j, hj, h0, hq⟩
      rcases List.mem_cons.1 hj with rfl | hj
      · have := Nat.mul_lt_mul_of_pos_right hq h0
        omega
      · have := ih1.2 ⟨j, hj, h0, hq⟩
        omega

/-- The budget test, for an occupation of the rungs that does not exceed the capacities and
where all configurations of the bracket have started. -/
theorem budget_test (b : Bracket F) (rungs : List Nat)
    (hq : ∀ r, b.minR ≤ r → r ≤ b.maxR →
      rungs.countP (fun x => decide (r ≤ x ∧ x ≤ b.maxR)) ≤ b.cap r)
    (hfull : rungs.countP (fun x => decide (b.minR ≤ x ∧ x ≤ b.maxR)) = b.cap b.minR) :
    budgetUsed b rungs < (rungTrace b).sum ↔ ∃ r, b.minR ≤ r ∧ r ≤ b.maxR ∧
      rungs.countP (fun x => decide (r ≤ x ∧ x ≤ b.maxR)) < b.cap r := by
  rw [budgetUsed_eq, trace_sum]
  rw [(weighted_lt _ (fun r => rungs.countP (fun x => decide (r ≤ x ∧ x ≤ b.maxR))) b.cap
    (fun j hj => by rw [List.mem_range'_1] at hj; exact hq j hj.1 (by omega))).1]
  constructor
  · rintro ⟨j, hj, _, hlt⟩
    rw [List.mem_range'_1] at hj
    exact ⟨j, hj.1, by omega, hlt⟩
  · rintro ⟨r, h1, h2, hlt⟩
    refine ⟨r, by rw [List.mem_range'_1]; omega, ?_, hlt⟩
    by_contra h0
    have hr : r = b.minR := by omega
    rw [hr, hfull] at hlt
    omega

end Neps.MF
