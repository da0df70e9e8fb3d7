import Verif.Ifbo.Casts
import Verif.Ifbo.Spec

/-!
# The fidelities of ifBO

Which object `init` builds, and how its indices, fidelities and budgets correspond.
-/

namespace Verif.Ifbo

open Verif.Space Verif.Space.Domain

variable {α : Type}

theorem make_float {l u : ℝ} {lg fi : Bool} {d : Option ℝ} {sc : ℝ} {q : FloatParam}
    (h : FloatParam.make l u lg fi d sc = some q) :
    l < u ∧ q.lower = l ∧ q.upper = u ∧ q.log = lg ∧ q.dflt = d ∧
      (∀ x, d = some x → l ≤ x ∧ x ≤ u) := by
  unfold FloatParam.make at h
  split at h
  · cases h
  rename_i hlt
  split at h
  · cases h
  cases d with
  | none =>
    simp only [Option.some.injEq] at h
    subst h
    exact ⟨not_le.mp hlt, rfl, rfl, rfl, rfl, fun x hx => by cases hx⟩
  | some x =>
    simp only at h
    split at h
    · cases h
    rename_i hb
    simp only [Option.some.injEq] at h
    subst h
    refine ⟨not_le.mp hlt, rfl, rfl, rfl, rfl, fun y hy => ?_⟩
    cases hy
    exact not_not.mp hb

theorem make_int {l u : ℝ} {lg fi : Bool} {d : Option ℝ} {sc : ℝ} {q : IntParam}
    (h : IntParam.make l u lg fi d sc = some q) :
    rnd l < rnd u ∧ q.lower = rnd l ∧ q.upper = rnd u ∧ q.log = lg ∧ q.dflt = d.map rnd ∧
      (∀ x, d = some x → rnd l ≤ rnd x ∧ rnd x ≤ rnd u) := by
  unfold IntParam.make at h
  simp only at h
  split at h
  · cases h
  rename_i hlt
  split at h
  · cases h
  split at h
  · cases h
  rename_i hd
  cases hf : FloatParam.make ((rnd l : ℝ) - IntParam.margin) ((rnd u : ℝ) + IntParam.margin) lg fi d
      sc with
  | none => rw [hf] at h; cases h
  | some f =>
    rw [hf] at h
    simp only [Option.bind_eq_bind, Option.bind_some, Option.pure_def, Option.some.injEq] at h
    subst h
    refine ⟨by omega, rfl, rfl, rfl, rfl, ?_⟩
    intro x hx
    subst hx
    simpa using hd

theorem adjust_some {fid f : Fid} {step : ℝ} {n : ℕ} (hlt : fid.lower < fid.upper)
    (h : adjust fid step = some (f, n)) :
    fid.log = false ∧ 0 < step ∧ 1 ≤ n ∧ n = steps fid.lower fid.upper step ∧
      fid.withLower (lowest fid.lower fid.upper step) = some f ∧
      (n : ℝ) * step ≤ fid.upper - fid.lower ∧ fid.upper - fid.lower < (n + 1) * step := by
  unfold adjust at h
  split at h
  · cases h
  rename_i hl
  split at h
  · cases h
  rename_i hs
  simp only at h
  split at h
  · cases h
  rename_i hn
  cases hw : fid.withLower (fid.lower + (fid.upper - fid.lower -
      ⌊(fid.upper - fid.lower) / step⌋ * step)) with
  | none => rw [hw] at h; cases h
  | some f' =>
    rw [hw] at h
    simp only [Option.map_some, Option.some.injEq, Prod.mk.injEq] at h
    obtain ⟨rfl, hn'⟩ := h
    have hpos : 0 < step := by
      by_contra hneg
      have hst : step < 0 := lt_of_le_of_ne (not_lt.mp hneg) hs
      have hd : (fid.upper - fid.lower) / step < 0 := div_neg_of_pos_of_neg (by linarith) hst
      have h1 : ⌊(fid.upper - fid.lower) / step⌋ < 0 := by
        rw [Int.floor_lt]; exact_mod_cast hd
      omega
    have hnn : n = steps fid.lower fid.upper step := by
      rw [← hn', steps]; rfl
    have hcast : ((⌊(fid.upper - fid.lower) / step⌋ : ℤ) : ℝ) = n := by
      have : (⌊(fid.upper - fid.lower) / step⌋ : ℤ) = (n : ℤ) := by omega
      rw [this]; simp
    have h1 := Int.floor_le ((fid.upper - fid.lower) / step)
    have h2 := Int.lt_floor_add_one ((fid.upper - fid.lower) / step)
    rw [hcast] at h1 h2 hw
    rw [le_div_iff₀ hpos] at h1
    rw [div_lt_iff₀ hpos] at h2
    refine ⟨by simpa using hl, hpos, by omega, hnn, ?_, h1, h2⟩
    rw [lowest, ← hnn, ← hw]
    congr 1
    ring

theorem init_some {fid : Fid} {step : ℝ} {design : List α} {s : Optimizer α}
    (h : init fid step design = some s) :
    ∃ f n fd, adjust fid step = some (f, n) ∧ f.domain = some fd ∧ f.upper ≠ 0 ∧
      s = ⟨f.lower, fd, floatDom (1 / f.upper) 1, intDom 0 ((n : ℤ) - 1), design⟩ := by
  unfold init at h
  cases ha : adjust fid step with
  | none => rw [ha] at h; cases h
  | some r =>
    obtain ⟨f, n⟩ := r
    rw [ha] at h
    simp only [Option.bind_eq_bind, Option.bind_some] at h
    cases hd : f.domain with
    | none => rw [hd] at h; cases h
    | some fd =>
      rw [hd] at h
      simp only [Option.bind_some] at h
      by_cases hu : f.upper = 0
      · simp [fdiv, hu] at h
      · simp only [fdiv, hu, if_false, Option.bind_some, floating_eq, indices_eq,
          Option.pure_def, Option.some.injEq] at h
        exact ⟨f, n, fd, rfl, hd, hu, h.symm⟩

/-- The optimizer built for a float fidelity. -/
theorem init_float {p : FloatParam} {step : ℝ} {design : List α} {s : Optimizer α}
    (hlt : p.lower < p.upper) (h : init (.float p) step design = some s) :
    0 < step ∧ 1 ≤ steps p.lower p.upper step ∧ p.upper ≠ 0 ∧
      lowest p.lower p.upper step < p.upper ∧
      s = ⟨lowest p.lower p.upper step, floatDom (lowest p.lower p.upper step) p.upper,
        floatDom (1 / p.upper) 1, intDom 0 ((steps p.lower p.upper step : ℤ) - 1), design⟩ := by
  obtain ⟨f, n, fd, ha, hd, hu, rfl⟩ := init_some h
  obtain ⟨hl, hpos, hn, rfl, hw, -, -⟩ := adjust_some (fid := .float p) hlt ha
  simp only [Fid.withLower, Option.map_eq_some_iff] at hw
  obtain ⟨q, hq, rfl⟩ := hw
  obtain ⟨h1, h2, h3, h4, -, -⟩ := make_float hq
  simp only [Fid.lower, Fid.upper, Fid.domain, Fid.log] at *
  rw [h2, h3, h4, hl, floating_eq] at hd
  cases hd
  rw [h3] at hu
  refine ⟨hpos, hn, hu, h1, ?_⟩
  rw [h2, h3]

/-- The optimizer built for an integer fidelity and a whole step size. -/
theorem init_int {p : IntParam} {k : ℤ} {design : List α} {s : Optimizer α}
    (hlt : p.lower < p.upper) (h : init (.int p) k design = some s) :
    0 < k ∧ 1 ≤ steps p.lower p.upper k ∧ p.upper ≠ 0 ∧
      s = ⟨((p.upper - steps p.lower p.upper k * k : ℤ) : ℝ),
        intDom (p.upper - steps p.lower p.upper k * k) p.upper,
        floatDom (1 / p.upper) 1, intDom 0 ((steps p.lower p.upper k : ℤ) - 1), design⟩ := by
  obtain ⟨f, n, fd, ha, hd, hu, rfl⟩ := init_some h
  obtain ⟨hl, hpos, hn, rfl, hw, -, -⟩ := adjust_some (by simpa [Fid.lower, Fid.upper] using hlt) ha
  simp only [Fid.withLower, Option.map_eq_some_iff] at hw
  obtain ⟨q, hq, rfl⟩ := hw
  obtain ⟨h1, h2, h3, h4, -, -⟩ := make_int hq
  simp only [Fid.lower, Fid.upper, Fid.domain, Fid.log] at *
  have hlow : lowest p.lower p.upper k = ((p.upper - steps p.lower p.upper k * k : ℤ) : ℝ) := by
    rw [lowest]; push_cast; rfl
  rw [rnd_intCast] at h3
  rw [hlow, rnd_intCast] at h2
  rw [h2, h3, h4, hl, integer_eq] at hd
  cases hd
  rw [h3] at hu
  refine ⟨by exact_mod_cast hpos, hn, by exact_mod_cast hu, ?_⟩
  rw [h2, h3]

/-! ## Indices, fidelities and budgets correspond -/

/-- How the conversions of an optimizer act on levels `0 .. n - 1`: `level` gives the fidelity of
an index and `idx` the index of the fidelity of an index. -/
structure Good (s : Optimizer α) (n : ℕ) (level : ℤ → ℝ) (idx : ℤ → ℤ) : Prop where
  n2 : 2 ≤ n
  ix : s.ixDom = intDom 0 ((n : ℤ) - 1)
  min : s.minFid = level 0
  strict : ∀ i j : ℤ, 0 ≤ i → i < j → j ≤ n - 1 → level i < level j
  fidOfIx : ∀ i : ℤ, 0 ≤ i → i ≤ n - 1 → s.fidDom.cast i s.ixDom = some (level i)
  ixOfFid : ∀ i : ℤ, 0 ≤ i → i ≤ n - 1 → s.ixDom.cast (level i) s.fidDom = some (idx i : ℝ)
  budget : ∃ b : ℤ → ℝ, ∀ i : ℤ, 0 ≤ i → i ≤ n - 1 →
    s.budgetDom.cast (level i) s.fidDom = some (b i) ∧
    s.fidDom.cast (b i) s.budgetDom = some (level i) ∧
    (b i < s.budgetDom.upper → i < n - 1 ∧ ∀ j : ℤ, i < j → j ≤ n - 1 → b i < b j) ∧
    (s.budgetDom.lower < s.budgetDom.upper → i < n - 1 → b i < s.budgetDom.upper)
  newFid : s.fidDom.cast s.budgetDom.lower s.budgetDom = some (level 0)

theorem good_float {l u : ℝ} (hlu : l < u) (hu1 : u ≠ 1) {n : ℕ} (hn : 2 ≤ n)
    {design : List α} :
    Good ⟨l, floatDom l u, floatDom (1 / u) 1, intDom 0 ((n : ℤ) - 1), design⟩ n
      (spaced l u n) id := by
  have hn1 : (0 : ℝ) < (n : ℝ) - 1 := by
    have : (2 : ℝ) ≤ n := by exact_mod_cast hn
    linarith
  have hd : (0 : ℝ) < u - l := by linarith
  have hz : (0 : ℤ) < (n : ℤ) - 1 := by omega
  have hbin : ∀ i : ℤ, 0 ≤ i → i ≤ n - 1 →
      bin (n : ℤ) ((i : ℝ) / ((n : ℝ) - 1)) = i := by
    intro i h0 h1
    have := bin_bin (q := n) (k := i) (by omega) h0 h1
    push_cast at this
    exact this
  have hunit : ∀ i : ℤ, (spaced l u n i - l) / (u - l) = (i : ℝ) / ((n : ℝ) - 1) := by
    intro i
    rw [spaced]
    field_simp
    ring
  have hne : (1 : ℝ) / u ≠ 1 := by
    intro h
    by_cases h0 : u = 0
    · simp [h0] at h
    · rw [div_eq_iff h0] at h
      exact hu1 (by linarith)
  refine ⟨hn, rfl, by simp [spaced], ?_, ?_, ?_, ?_, ?_⟩
  · intro i j h0 hij h1
    rw [spaced, spaced]
    have : (i : ℝ) < j := by exact_mod_cast hij
    have : (i : ℝ) / ((n : ℝ) - 1) < j / ((n : ℝ) - 1) := by gcongr
    nlinarith
  · intro i h0 h1
    simp only
    rw [cast_float_int hz]
    push_cast
    simp only [sub_zero, sub_add_cancel]
    rw [hbin i h0 h1, spaced, add_comm]
  · intro i h0 h1
    simp only
    rw [cast_int_float hlu.ne hz, hunit]
    simp only [sub_zero, sub_add_cancel]
    rw [hbin i h0 h1]
    simp
  · refine ⟨fun i => (i : ℝ) / ((n : ℝ) - 1) * (1 - 1 / u) + 1 / u, ?_⟩
    intro i h0 h1
    simp only
    refine ⟨?_, ?_, ?_, ?_⟩
    · rw [cast_float_float hlu.ne, hunit]
      rintro ⟨-, h⟩
      exact hu1 h.symm
    · rw [cast_float_float hne]
      · have : (1 : ℝ) - 1 / u ≠ 0 := sub_ne_zero.mpr (Ne.symm hne)
        rw [add_sub_cancel_right, mul_div_assoc, div_self this, mul_one, spaced, add_comm]
      · rintro ⟨-, h⟩; exact hu1 h
    · intro hlt
      have hi1 : (i : ℝ) ≤ (n : ℝ) - 1 := by exact_mod_cast h1
      have hi0 : (0 : ℝ) ≤ i := by exact_mod_cast h0
      have hq1 : (i : ℝ) / ((n : ℝ) - 1) ≤ 1 := by rw [div_le_one hn1]; exact hi1
      simp only [floatDom] at hlt
      have hprod : 0 < (1 - (i : ℝ) / ((n : ℝ) - 1)) * (1 - 1 / u) := by linarith
      have hc : 0 < 1 - 1 / u := by
        by_contra hc
        nlinarith
      have hq2 : (i : ℝ) / ((n : ℝ) - 1) < 1 := by
        by_contra hq
        nlinarith
      refine ⟨?_, ?_⟩
      · rw [div_lt_one hn1] at hq2
        have : (i : ℝ) < ((n : ℤ) - 1 : ℤ) := by push_cast; exact hq2
        exact_mod_cast this
      · intro j hij hj
        have : (i : ℝ) < j := by exact_mod_cast hij
        have : (i : ℝ) / ((n : ℝ) - 1) < j / ((n : ℝ) - 1) := by gcongr
        nlinarith
    · intro hlow hi
      simp only [floatDom] at hlow ⊢
      have hi' : (i : ℝ) < (n : ℝ) - 1 := by exact_mod_cast hi
      have : (i : ℝ) / ((n : ℝ) - 1) < 1 := by rw [div_lt_one hn1]; exact hi'
      nlinarith
  · simp only [floatDom]
    have := cast_float_float (l := 1 / u) (u := 1) (l' := l) (u' := u) hne
      (by rintro ⟨-, h⟩; exact hu1 h) (1 / u)
    simpa [floatDom, spaced] using this

theorem floor_intDiv (a b : ℤ) (hb : 0 < b) : ⌊(a : ℝ) / b⌋ = a / b := by
  have hb' : (0 : ℝ) < b := by exact_mod_cast hb
  rw [Int.floor_eq_iff, le_div_iff₀ hb', div_lt_iff₀ hb']
  have h1 := Int.ediv_mul_le a hb.ne'
  have h2 := Int.lt_ediv_add_one_mul_self a hb
  constructor
  · exact_mod_cast h1
  · exact_mod_cast h2

/-- The level of an index in whole numbers. -/
theorem bin_level {L : ℤ} {n : ℕ} (hn : 2 ≤ n) (hL : 1 ≤ L) {i : ℤ} (h0 : 0 ≤ i) :
    bin (L + 1) ((i : ℝ) / ((n : ℝ) - 1)) = min (i * (L + 1) / ((n : ℤ) - 1)) L := by
  have hz : (0 : ℤ) < (n : ℤ) - 1 := by omega
  have h := floor_intDiv (i * (L + 1)) ((n : ℤ) - 1) hz
  have heq : (i : ℝ) / ((n : ℝ) - 1) * ((L + 1 : ℤ) : ℝ) =
      ((i * (L + 1) : ℤ) : ℝ) / (((n : ℤ) - 1 : ℤ) : ℝ) := by
    push_cast; ring
  have hnn : 0 ≤ i * (L + 1) / ((n : ℤ) - 1) :=
    Int.ediv_nonneg (mul_nonneg h0 (by omega)) hz.le
  unfold bin
  rw [heq, h]
  omega

/-- The index of a whole number `m` above the lowest level, with `n` steps of size `k`. -/
theorem bin_index {k : ℤ} {n : ℕ} (hn : 2 ≤ n) (hk : 1 ≤ k) {m : ℤ} (h0 : 0 ≤ m) :
    bin n ((m : ℝ) / ((n * k : ℤ) : ℝ)) = min (m / k) ((n : ℤ) - 1) := by
  have h := floor_intDiv m k (by omega)
  have hn0 : (n : ℝ) ≠ 0 := by
    have : (2 : ℝ) ≤ n := by exact_mod_cast hn
    linarith
  have hk0 : (k : ℝ) ≠ 0 := by
    have : (1 : ℝ) ≤ k := by exact_mod_cast hk
    linarith
  have heq : (m : ℝ) / ((n * k : ℤ) : ℝ) * ((n : ℤ) : ℝ) = (m : ℝ) / k := by
    push_cast
    field_simp
  have hnn : 0 ≤ m / k := Int.ediv_nonneg h0 (by omega)
  unfold bin
  rw [heq, h]
  omega

/-- The number of whole numbers between the lowest level and the level of index `i`. -/
def offset (n : ℕ) (k i : ℤ) : ℤ := min (i * (n * k + 1) / ((n : ℤ) - 1)) (n * k)

theorem spacedInt_eq (u : ℤ) (n : ℕ) (k i : ℤ) :
    spacedInt (u - n * k) u n i = u - n * k + offset n k i := by
  unfold spacedInt offset
  congr 2 <;> ring_nf

theorem offset_bounds {n : ℕ} {k i : ℤ} (hn : 2 ≤ n) (hk : 1 ≤ k) (h0 : 0 ≤ i) :
    0 ≤ offset n k i ∧ offset n k i ≤ n * k := by
  have hnk : 0 ≤ (n : ℤ) * k := by positivity
  have : 0 ≤ i * (n * k + 1) / ((n : ℤ) - 1) :=
    Int.ediv_nonneg (mul_nonneg h0 (by omega)) (by omega)
  unfold offset
  omega

theorem offset_mono {n : ℕ} {k i j : ℤ} (hn : 2 ≤ n) (hk : 1 ≤ k) (hij : i ≤ j) :
    offset n k i ≤ offset n k j := by
  have hnk : 0 ≤ (n : ℤ) * k := by positivity
  have : i * (n * k + 1) / ((n : ℤ) - 1) ≤ j * (n * k + 1) / ((n : ℤ) - 1) :=
    Int.ediv_le_ediv (by omega) (mul_le_mul_of_nonneg_right hij (by omega))
  unfold offset
  omega

/-- Every level is in the step of its own index exactly if there are at most `k + 1` steps. -/
theorem offset_index {n : ℕ} {k : ℤ} (hn : 2 ≤ n) (hk : 1 ≤ k) :
    (∀ i : ℤ, 0 ≤ i → i ≤ n - 1 → min (offset n k i / k) ((n : ℤ) - 1) = i) ↔ (n : ℤ) ≤ k + 1 := by
  have hsplit : ∀ i : ℤ, i * (n * k + 1) / ((n : ℤ) - 1) =
      i * k + i * (k + 1) / ((n : ℤ) - 1) := by
    intro i
    rw [show i * (n * k + 1) = i * (k + 1) + i * k * ((n : ℤ) - 1) by ring,
      Int.add_mul_ediv_right _ _ (by omega)]
    ring
  constructor
  · intro h
    by_contra hlt
    have hi := h ((n : ℤ) - 2) (by omega) (by omega)
    have hq : k ≤ ((n : ℤ) - 2) * (k + 1) / ((n : ℤ) - 1) := by
      rw [Int.le_ediv_iff_mul_le (by omega)]
      nlinarith
    have hm : ((n : ℤ) - 1) * k ≤ offset n k ((n : ℤ) - 2) := by
      unfold offset
      rw [hsplit]
      have : ((n : ℤ) - 1) * k ≤ n * k := by nlinarith
      have : ((n : ℤ) - 1) * k = ((n : ℤ) - 2) * k + k := by ring
      omega
    have : (n : ℤ) - 1 ≤ offset n k ((n : ℤ) - 2) / k := by
      rw [Int.le_ediv_iff_mul_le (by omega)]; exact hm
    omega
  · intro hle i h0 h1
    rcases eq_or_lt_of_le h1 with rfl | h1
    · have : offset n k ((n : ℤ) - 1) = n * k := by
        unfold offset
        rw [Int.mul_ediv_cancel_left _ (by omega)]
        omega
      rw [this, Int.mul_ediv_cancel _ (by omega)]
      omega
    · have hq0 : 0 ≤ i * (k + 1) / ((n : ℤ) - 1) :=
        Int.ediv_nonneg (mul_nonneg h0 (by omega)) (by omega)
      have hq : i * (k + 1) / ((n : ℤ) - 1) < k := by
        rw [Int.ediv_lt_iff_lt_mul (by omega)]
        nlinarith
      have hik : (i + 1) * k ≤ n * k := by nlinarith
      have hoff : offset n k i = i * k + i * (k + 1) / ((n : ℤ) - 1) := by
        unfold offset
        rw [hsplit]
        have : (i + 1) * k = i * k + k := by ring
        omega
      have : offset n k i / k = i := by
        rw [hoff, add_comm, Int.add_mul_ediv_right _ _ (by omega),
          Int.ediv_eq_zero_of_lt hq0 hq]
        ring
      omega

section int

variable {u k : ℤ} {n : ℕ}

theorem int_fidOfIx (hn : 2 ≤ n) (hk : 1 ≤ k) {i : ℤ} (h0 : 0 ≤ i) (h1 : i ≤ n - 1) :
    (intDom (u - n * k) u).cast i (intDom 0 ((n : ℤ) - 1)) =
      some ((spacedInt (u - n * k) u n i : ℤ) : ℝ) := by
  have hz : (0 : ℤ) < (n : ℤ) - 1 := by omega
  have hnk : (n : ℤ) ≤ n * k := by nlinarith
  have hbin := bin_bin (q := n) (k := i) (by omega) h0 h1
  rw [cast_int_int hz (by omega) (by omega)]
  push_cast at hbin ⊢
  simp only [sub_zero, sub_add_cancel]
  rw [hbin, show u - (u - n * k) + 1 = n * k + 1 by ring, bin_level hn (by omega) h0, spacedInt_eq, offset]
  push_cast
  ring_nf

theorem int_ixOfFid (hn : 2 ≤ n) (hk : 1 ≤ k) {m : ℤ} (h0 : 0 ≤ m) (h1 : m ≤ n * k) :
    (intDom 0 ((n : ℤ) - 1)).cast ((u - n * k + m : ℤ) : ℝ) (intDom (u - n * k) u) =
      some ((min (m / k) ((n : ℤ) - 1) : ℤ) : ℝ) := by
  have hz : (0 : ℤ) < (n : ℤ) - 1 := by omega
  have hnk : (n : ℤ) ≤ n * k := by nlinarith
  have hbin := bin_bin (q := n * k + 1) (k := m) (by omega) h0 (by omega)
  rw [cast_int_int (by omega) hz (by omega)]
  have h1 : (((u - n * k + m : ℤ) : ℝ) - ((u - n * k : ℤ) : ℝ)) / ((u : ℝ) - ((u - n * k : ℤ) : ℝ))
      = (m : ℝ) / ((n * k + 1 - 1 : ℤ) : ℝ) := by
    push_cast; ring_nf
  have h2 : (u : ℝ) - ((u - n * k : ℤ) : ℝ) = ((n * k : ℤ) : ℝ) := by push_cast; ring
  rw [h1, show u - (u - n * k) + 1 = n * k + 1 by ring, hbin, h2,
    show ((n : ℤ) - 1 - 0 + 1) = n by ring, bin_index hn hk h0]
  simp

theorem int_budget (hk : 1 ≤ k) (hn : 2 ≤ n) {m : ℤ} (h0 : 0 ≤ m) (h1 : m ≤ n * k) :
    (floatDom (1 / u) 1).cast ((u - n * k + m : ℤ) : ℝ) (intDom (u - n * k) u) =
      some ((m : ℝ) / ((n * k : ℤ) : ℝ) * (1 - 1 / u) + 1 / u) := by
  have hnk : (n : ℤ) ≤ n * k := by nlinarith
  have hbin := bin_bin (q := n * k + 1) (k := m) (by omega) h0 (by omega)
  rw [cast_float_int (by omega)]
  have h1 : (((u - n * k + m : ℤ) : ℝ) - ((u - n * k : ℤ) : ℝ)) / ((u : ℝ) - ((u - n * k : ℤ) : ℝ))
      = (m : ℝ) / ((n * k + 1 - 1 : ℤ) : ℝ) := by
    push_cast; ring_nf
  have h2 : (u : ℝ) - ((u - n * k : ℤ) : ℝ) = ((n * k : ℤ) : ℝ) := by push_cast; ring
  rw [h1, show u - (u - n * k) + 1 = n * k + 1 by ring, hbin, h2]

theorem int_fidOfBudget (hu : (1 : ℝ) / u ≠ 1) (hk : 1 ≤ k) (hn : 2 ≤ n) {m : ℤ} (h0 : 0 ≤ m)
    (h1 : m ≤ n * k) :
    (intDom (u - n * k) u).cast ((m : ℝ) / ((n * k : ℤ) : ℝ) * (1 - 1 / u) + 1 / u)
      (floatDom (1 / u) 1) = some ((u - n * k + m : ℤ) : ℝ) := by
  have hnk : (n : ℤ) ≤ n * k := by nlinarith
  have hbin := bin_bin (q := n * k + 1) (k := m) (by omega) h0 (by omega)
  have hne : (1 : ℝ) - 1 / u ≠ 0 := sub_ne_zero.mpr (Ne.symm hu)
  rw [cast_int_float hu (by omega), add_sub_cancel_right, mul_div_assoc, div_self hne, mul_one,
    show u - (u - n * k) + 1 = n * k + 1 by ring]
  rw [show (n * k + 1 - 1 : ℤ) = n * k by ring] at hbin
  rw [hbin]
  push_cast
  ring_nf

theorem offset_top (hn : 2 ≤ n) : offset n k ((n : ℤ) - 1) = n * k := by
  unfold offset
  rw [Int.mul_ediv_cancel_left _ (by omega)]
  omega

theorem offset_strict (hn : 2 ≤ n) (hk : 1 ≤ k) (i j : ℤ) (_ : 0 ≤ i) (hij : i < j)
    (hj : j ≤ n - 1) : offset n k i < offset n k j := by
  have hnk : (n : ℤ) ≤ n * k := by nlinarith
  have h1 : i * (n * k + 1) / ((n : ℤ) - 1) + 1 ≤ j * (n * k + 1) / ((n : ℤ) - 1) := by
    rw [Int.le_ediv_iff_mul_le (by omega)]
    have := Int.ediv_mul_le (i * (n * k + 1)) (show ((n : ℤ) - 1) ≠ 0 by omega)
    nlinarith
  have h2 : i * (n * k + 1) / ((n : ℤ) - 1) < n * k := by
    rw [Int.ediv_lt_iff_lt_mul (by omega)]
    nlinarith
  unfold offset
  omega

theorem good_int (hu : (1 : ℝ) / u ≠ 1) (hn : 2 ≤ n) (hk : 1 ≤ k)
    {design : List α} :
    Good ⟨((u - n * k : ℤ) : ℝ), intDom (u - n * k) u, floatDom (1 / u) 1,
      intDom 0 ((n : ℤ) - 1), design⟩ n (fun i => (spacedInt (u - n * k) u n i : ℤ))
      (fun i => min (offset n k i / k) ((n : ℤ) - 1)) := by
  have hnk : (n : ℤ) ≤ n * k := by nlinarith
  have hoff0 : offset n k 0 = 0 := by
    unfold offset
    simp
    omega
  have hstrict := offset_strict hn hk
  have htop := offset_top (k := k) hn
  refine ⟨hn, rfl, ?_, ?_, ?_, ?_, ?_, ?_⟩
  · simp only
    rw [spacedInt_eq, hoff0, add_zero]
  · intro i j h0 hij hj
    have := hstrict i j h0 hij hj
    simp only [spacedInt_eq, Int.cast_lt]
    omega
  · intro i h0 h1
    exact int_fidOfIx hn hk h0 h1
  · intro i h0 h1
    simp only [spacedInt_eq]
    obtain ⟨hb0, hb1⟩ := offset_bounds hn hk h0
    rw [int_ixOfFid hn hk hb0 hb1]
  · refine ⟨fun i => (offset n k i : ℝ) / ((n * k : ℤ) : ℝ) * (1 - 1 / u) + 1 / u, ?_⟩
    intro i h0 h1
    obtain ⟨hb0, hb1⟩ := offset_bounds hn hk h0
    simp only [spacedInt_eq]
    have hpos : (0 : ℝ) < ((n * k : ℤ) : ℝ) := by
      have : (0 : ℤ) < n * k := by omega
      exact_mod_cast this
    refine ⟨int_budget hk hn hb0 hb1, int_fidOfBudget hu hk hn hb0 hb1, ?_, ?_⟩
    swap
    · intro hlow hi
      simp only [floatDom] at hlow ⊢
      have hi' : (offset n k i : ℝ) < ((n * k : ℤ) : ℝ) := by
        have := hstrict i _ h0 hi le_rfl
        rw [htop] at this
        exact_mod_cast this
      have : (offset n k i : ℝ) / ((n * k : ℤ) : ℝ) < 1 := by rw [div_lt_one hpos]; exact hi'
      nlinarith
    intro hlt
    have hq1 : (offset n k i : ℝ) / ((n * k : ℤ) : ℝ) ≤ 1 := by
      rw [div_le_one hpos]; exact_mod_cast hb1
    simp only [floatDom] at hlt
    have hprod : 0 < (1 - (offset n k i : ℝ) / ((n * k : ℤ) : ℝ)) * (1 - 1 / u) := by linarith
    have hc : 0 < 1 - 1 / (u : ℝ) := by
      by_contra hc
      nlinarith
    have hq2 : (offset n k i : ℝ) / ((n * k : ℤ) : ℝ) < 1 := by
      by_contra hq
      nlinarith
    refine ⟨?_, ?_⟩
    · rw [div_lt_one hpos] at hq2
      have : offset n k i < n * k := by exact_mod_cast hq2
      by_contra hi
      have : i = (n : ℤ) - 1 := by omega
      subst this
      omega
    · intro j hij hj
      have : (offset n k i : ℝ) < offset n k j := by exact_mod_cast hstrict i j h0 hij hj
      have : (offset n k i : ℝ) / ((n * k : ℤ) : ℝ) < offset n k j / ((n * k : ℤ) : ℝ) := by gcongr
      nlinarith
  · have := int_fidOfBudget (n := n) hu hk hn (m := 0) le_rfl (by omega)
    simp only [spacedInt_eq, hoff0]
    simpa [floatDom] using this

end int

end Verif.Ifbo
