import Verif.Space.ParamLemmas

/-!
# Properties of the hyperparameters

C33: the values produced by sampling, neighbours, mutation, crossover and grids stay within the
bounds or the choices.  C34: setting an invalid value is rejected.  C55: the value a parameter
holds is always legal.  C56: setting an invalid default is rejected.  C57: the prior of a
categorical parameter.
-/

namespace Verif.Space

open Verif.Space

/-! ## C33: floats -/

/-- **C33 (float, sampling)**: whatever has been done with the parameter before and whatever is
drawn, sampling succeeds and the sampled copy holds a value within the bounds. -/
theorem C33_float_sample {p : FloatParam} (h : p.Used) (userPriors : Bool) (uniform normal : ℝ) :
    ∃ q, p.sample userPriors uniform normal = some q ∧
      ∃ v, q.value = some v ∧ p.lower ≤ v ∧ v ≤ p.upper := by
  have hi := h.inv
  have hm := hi.sampleValue_mem userPriors uniform normal
  obtain ⟨s1, s2, _⟩ := (hi.score p.choice).setValue_ok hm
  refine ⟨_, ?_, _, s2, hm⟩
  unfold FloatParam.sample
  simp only [hi.clone_eq, Option.bind_eq_bind, Option.bind_some, s1, Bool.false_eq_true, if_false,
    Option.pure_def]

/-- **C33 (float, neighbours)**: as many neighbours as asked for, all within the bounds. -/
theorem C33_float_neighbours {p : FloatParam} (h : p.Used) (k : ℕ) (draws : List ℝ)
    (ns : List FloatParam) (hn : p.neighbours k draws = some ns) :
    ns.length = k ∧ ∀ q ∈ ns, ∃ v, q.value = some v ∧ p.lower ≤ v ∧ v ≤ p.upper := by
  obtain ⟨a, b⟩ := FloatParam.neighbours_mem h.inv k draws ns hn
  exact ⟨a, fun q hq => (b q hq).2.2.2⟩

/-- Neighbours are found as soon as enough draws fall into the unit interval. -/
theorem C33_float_neighbours_progress {p : FloatParam} (h : p.Used) (k : ℕ) (draws : List ℝ)
    (hd : k ≤ (draws.filter (fun n => decide (0 ≤ n ∧ n ≤ 1))).length) :
    ∃ ns, p.neighbours k draws = some ns := by
  have hi := h.inv
  induction draws generalizing k with
  | nil =>
    simp only [List.filter_nil, List.length_nil, Nat.le_zero_eq] at hd
    subst hd
    exact ⟨_, rfl⟩
  | cons n draws ih =>
    cases k with
    | zero => exact ⟨_, rfl⟩
    | succ k =>
      unfold FloatParam.neighbours
      split_ifs with hc
      · apply ih
        rw [List.filter_cons_of_neg] at hd
        · exact hd
        · simp only [decide_eq_true_eq]
          rintro ⟨a, b⟩
          rcases hc with hc | hc <;> linarith
      · push Not at hc
        rw [List.filter_cons_of_pos (by simpa using hc)] at hd
        simp only [List.length_cons] at hd
        obtain ⟨ns, hns⟩ := ih k (by omega)
        obtain ⟨s1, _⟩ := (hi.score p.choice).setValue_ok (hi.normalizedToValue_mem hc.1 hc.2)
        simp only [hi.clone_eq, Option.bind_eq_bind, Option.bind_some, s1, Bool.false_eq_true,
          if_false, hns, Option.pure_def]
        exact ⟨_, rfl⟩

/-- **C33 (float, mutation)**: a mutated parameter holds no value or one within the bounds, and it
is not the value of the parent; a fidelity is never mutated. -/
theorem C33_float_mutate {p : FloatParam} (h : p.Used) (parent : Option FloatParam)
    (s : Strategy) (draws : List ℝ) (q : FloatParam) (hq : p.mutate parent s draws = some q) :
    p.isFidelity = false ∧ (∀ v, q.value = some v → p.lower ≤ v ∧ v ≤ p.upper) ∧
      q.value ≠ (parent.getD p).value := by
  unfold FloatParam.mutate at hq
  split_ifs at hq with hf
  refine ⟨by simpa using hf, ?_⟩
  simp only [Option.bind_eq_bind] at hq
  rw [Option.bind_eq_some_iff] at hq
  obtain ⟨c, hc, hq⟩ := hq
  split_ifs at hq with hv
  simp only [Option.pure_def, Option.some.injEq] at hq
  subst hq
  refine ⟨?_, fun he => hv he.symm⟩
  unfold FloatParam.mutant at hc
  cases s with
  | simple =>
    simp only [h.inv.clone_eq, Option.some.injEq] at hc
    subst hc
    exact h.inv.value
  | localSearch =>
    simp only at hc
    split_ifs at hc
    rw [Option.bind_eq_some_iff] at hc
    obtain ⟨ns, hns, hc⟩ := hc
    obtain ⟨_, hb⟩ := C33_float_neighbours h 1 draws ns hns
    obtain ⟨v, hv, hm⟩ := hb c (List.mem_of_mem_head? hc)
    intro w hw
    rw [hv] at hw
    simp only [Option.some.injEq] at hw
    subst hw
    exact hm
  | other => simp at hc

/-- **C33 fails for the simple mutation of a numerical parameter**: it never returns a mutated
parameter unless a different parent is passed (neps/search_spaces/hyperparameters/numerical.py:
197-211 throws the sample away). -/
theorem C33_simple_mutation_fails {p : FloatParam} (h : p.Used) (draws : List ℝ) :
    p.mutate none .simple draws = none := by
  unfold FloatParam.mutate
  split_ifs
  · rfl
  · simp [FloatParam.mutant, h.inv.clone_eq]

/-- **C33 (float, crossover)**: both children are within the bounds. -/
theorem C33_float_crossover {p : FloatParam} (h : p.Used) (p1 : FloatParam)
    (p2 : Option FloatParam) (draws : List ℝ) (a b : FloatParam)
    (hc : p.crossover p1 p2 draws = some (a, b)) :
    (∃ v, a.value = some v ∧ p.lower ≤ v ∧ v ≤ p.upper) ∧
      (∃ v, b.value = some v ∧ p.lower ≤ v ∧ v ≤ p.upper) := by
  have hi := h.inv
  unfold FloatParam.crossover at hc
  split_ifs at hc
  simp only [Option.bind_eq_bind] at hc
  rw [Option.bind_eq_some_iff] at hc
  obtain ⟨v1, hv1, hc⟩ := hc
  rw [Option.bind_eq_some_iff] at hc
  obtain ⟨v2, hv2, hc⟩ := hc
  simp only [hi.clone_eq, Option.bind_some] at hc
  split_ifs at hc
  rw [Option.bind_eq_some_iff] at hc
  obtain ⟨ns, hns, hc⟩ := hc
  have hsi := FloatParam.setValue_inv (hi.score p.choice) (some ((v1 + v2) / 2))
  obtain ⟨f1, f2, _⟩ := IntParam.setValue_fields { p with score := p.choice } (some ((v1 + v2) / 2))
  obtain ⟨_, hb⟩ := FloatParam.neighbours_mem hsi 2 draws ns hns
  rw [f1, f2] at hb
  split at hc
  · simp only [Option.pure_def, Option.some.injEq, Prod.mk.injEq] at hc
    rw [← hc.1, ← hc.2]
    exact ⟨(hb _ (by simp)).2.2.2, (hb _ (by simp)).2.2.2⟩
  · simp at hc

/-- Every point of the unit grid lies in the unit interval. -/
theorem linspace01_mem {size : ℕ} {e : Bool} {x : ℝ} (h : x ∈ linspace01 size e) :
    0 ≤ x ∧ x ≤ 1 := by
  unfold linspace01 at h
  rw [List.mem_map] at h
  obtain ⟨i, hi, rfl⟩ := h
  rw [List.mem_range] at hi
  have hs : (0 : ℝ) < size := by exact_mod_cast (by omega : 0 < size)
  have hi' : (i : ℝ) < size := by exact_mod_cast hi
  have hi1 : (i : ℝ) + 1 ≤ size := by exact_mod_cast hi
  split_ifs with he h1
  · norm_num
  · have : (2 : ℝ) ≤ size := by exact_mod_cast (by omega : 2 ≤ size)
    constructor
    · apply div_nonneg (Nat.cast_nonneg _); linarith
    · rw [div_le_one (by linarith)]; linarith
  · exact ⟨by positivity, by rw [div_le_one hs]; linarith⟩

theorem FloatParam.Inv.normalizedToValue_zero {p : FloatParam} (hi : p.Inv) :
    p.normalizedToValue 0 = p.lower := by
  unfold FloatParam.normalizedToValue
  cases hl : p.log with
  | false => simp [FloatParam.low, hl]
  | true => simp [FloatParam.low, hl, Real.exp_log (hi.pos hl)]

theorem FloatParam.Inv.normalizedToValue_one {p : FloatParam} (hi : p.Inv) :
    p.normalizedToValue 1 = p.upper := by
  unfold FloatParam.normalizedToValue
  cases hl : p.log with
  | false => simp [FloatParam.high, hl]
  | true => simp [FloatParam.high, hl, Real.exp_log (lt_trans (hi.pos hl) hi.lt)]

theorem linspace01_head {size : ℕ} (e : Bool) (h : 1 ≤ size) :
    (linspace01 size e).head? = some 0 := by
  obtain ⟨k, rfl⟩ : ∃ k, size = k + 1 := ⟨size - 1, by omega⟩
  simp [linspace01, List.range_succ_eq_map]

theorem linspace01_last {size : ℕ} (h : 2 ≤ size) : (linspace01 size true).getLast? = some 1 := by
  obtain ⟨k, rfl⟩ : ∃ k, size = k + 2 := ⟨size - 2, by omega⟩
  unfold linspace01
  rw [List.range_succ]
  simp only [List.map_append, List.map_cons, List.map_nil, if_true, List.getLast?_concat,
    Option.some.injEq]
  rw [if_neg (by omega)]
  have : ((k + 1 : ℕ) : ℝ) = ((k + 2 : ℕ) : ℝ) - 1 := by push_cast; ring
  rw [this, div_self]
  push_cast
  have : (0 : ℝ) ≤ k := Nat.cast_nonneg k
  linarith

/-- **C33 (float, grid)**: the grid has the requested size, stays within the bounds and starts at
the lower bound; with the end point included it ends at the upper bound. -/
theorem C33_float_grid {p : FloatParam} (h : p.Used) (size : ℕ) (endpoint : Bool) :
    (p.grid size endpoint).length = size ∧
      (∀ v ∈ p.grid size endpoint, p.lower ≤ v ∧ v ≤ p.upper) ∧
      (1 ≤ size → (p.grid size endpoint).head? = some p.lower) ∧
      (2 ≤ size → (p.grid size true).getLast? = some p.upper) := by
  have hi := h.inv
  refine ⟨by simp [FloatParam.grid, linspace01], ?_, ?_, ?_⟩
  · intro v hv
    unfold FloatParam.grid at hv
    rw [List.mem_map] at hv
    obtain ⟨n, hn, rfl⟩ := hv
    obtain ⟨a, b⟩ := linspace01_mem hn
    exact hi.normalizedToValue_mem a b
  · intro hs
    unfold FloatParam.grid
    rw [List.head?_map, linspace01_head _ hs]
    simp [hi.normalizedToValue_zero]
  · intro hs
    unfold FloatParam.grid
    rw [List.getLast?_map, linspace01_last hs]
    simp [hi.normalizedToValue_one]

/-! ## C33: integers -/

/-- **C33 (integer, sampling)**: a sampled copy holds an integer within the bounds. -/
theorem C33_int_sample {p : IntParam} (h : p.Used) (userPriors : Bool) (uniform normal : ℝ)
    (q : IntParam) (hq : p.sample userPriors uniform normal = some q) :
    ∃ v, q.value = some v ∧ p.lower ≤ v ∧ v ≤ p.upper := by
  have hi := h.inv
  have hm := hi.rnd_mem (hi.finv.sampleValue_mem userPriors uniform normal)
  change p.lower ≤ p.sampleValue userPriors uniform normal ∧
    p.sampleValue userPriors uniform normal ≤ p.upper at hm
  unfold IntParam.sample at hq
  rw [Option.bind_eq_bind, Option.bind_eq_some_iff] at hq
  obtain ⟨r, hr, hq⟩ := hq
  obtain ⟨ri, r1, r2, _, _⟩ := IntParam.clone_some hr
  have hok := ri.setValue_ok (v := (p.sampleValue userPriors uniform normal : ℝ))
    ⟨by rw [r1]; exact_mod_cast hm.1, by rw [r2]; exact_mod_cast hm.2⟩
  rw [hok.1] at hq
  simp only [Bool.false_eq_true, if_false, Option.pure_def, Option.some.injEq] at hq
  subst hq
  exact ⟨_, by simp, hm⟩

/-- A parameter whose default and value are legal can always be sampled. -/
theorem C33_int_sample_total {p : IntParam} (h : p.Used)
    (hd : ∀ x, p.dflt = some x → p.lower ≤ x ∧ x ≤ p.upper)
    (hv : ∀ x, p.value = some x → p.lower ≤ x ∧ x ≤ p.upper)
    (userPriors : Bool) (uniform normal : ℝ) : ∃ q, p.sample userPriors uniform normal = some q := by
  have hi := h.inv
  have hm := hi.rnd_mem (hi.finv.sampleValue_mem userPriors uniform normal)
  change p.lower ≤ p.sampleValue userPriors uniform normal ∧
    p.sampleValue userPriors uniform normal ≤ p.upper at hm
  obtain ⟨r, hr⟩ := IntParam.clone_total hi hd hv
  obtain ⟨ri, r1, r2, _, _⟩ := IntParam.clone_some hr
  have hok := ri.setValue_ok (v := (p.sampleValue userPriors uniform normal : ℝ))
    ⟨by rw [r1]; exact_mod_cast hm.1, by rw [r2]; exact_mod_cast hm.2⟩
  unfold IntParam.sample
  simp only [hr, Option.bind_eq_bind, Option.bind_some, hok.1, Bool.false_eq_true, if_false,
    Option.pure_def]
  exact ⟨_, rfl⟩

/-- **C33 (integer, neighbours)**: within the bounds and different from the parameter's value. -/
theorem C33_int_neighbours {p : IntParam} (h : p.Used) (k : ℕ) (draws : List ℝ)
    (ns : List IntParam) (hn : p.neighbours k draws = some ns) :
    ns.length = k ∧
      ∀ q ∈ ns, ∃ v, q.value = some v ∧ p.lower ≤ v ∧ v ≤ p.upper ∧ p.value ≠ some v := by
  obtain ⟨a, b⟩ := IntParam.neighbours_mem h.inv k draws ns hn
  exact ⟨a, fun q hq => (b q hq).2.2.2⟩

/-- **C33 (integer, mutation)**. -/
theorem C33_int_mutate {p : IntParam} (h : p.Used) (parent : Option IntParam)
    (s : Strategy) (draws : List ℝ) (q : IntParam) (hq : p.mutate parent s draws = some q) :
    p.isFidelity = false ∧ (∀ v, q.value = some v → p.lower ≤ v ∧ v ≤ p.upper) ∧
      q.value ≠ (parent.getD p).value := by
  unfold IntParam.mutate at hq
  split_ifs at hq with hf
  refine ⟨by simpa using hf, ?_⟩
  simp only [Option.bind_eq_bind] at hq
  rw [Option.bind_eq_some_iff] at hq
  obtain ⟨c, hc, hq⟩ := hq
  split_ifs at hq with hv
  simp only [Option.pure_def, Option.some.injEq] at hq
  subst hq
  refine ⟨?_, fun he => hv he.symm⟩
  unfold IntParam.mutant at hc
  cases s with
  | simple => exact (IntParam.clone_some hc).2.2.2.2
  | localSearch =>
    simp only at hc
    split_ifs at hc
    rw [Option.bind_eq_some_iff] at hc
    obtain ⟨ns, hns, hc⟩ := hc
    obtain ⟨_, hb⟩ := C33_int_neighbours h 1 draws ns hns
    obtain ⟨v, hv, hm1, hm2, _⟩ := hb c (List.mem_of_mem_head? hc)
    intro w hw
    rw [hv] at hw
    simp only [Option.some.injEq] at hw
    subst hw
    exact ⟨hm1, hm2⟩
  | other => simp at hc

/-- **C33 (integer, crossover)**. -/
theorem C33_int_crossover {p : IntParam} (p1 : IntParam)
    (p2 : Option IntParam) (draws : List ℝ) (a b : IntParam)
    (hc : p.crossover p1 p2 draws = some (a, b)) :
    (∃ v, a.value = some v ∧ p.lower ≤ v ∧ v ≤ p.upper) ∧
      (∃ v, b.value = some v ∧ p.lower ≤ v ∧ v ≤ p.upper) := by
  unfold IntParam.crossover at hc
  split_ifs at hc
  simp only [Option.bind_eq_bind] at hc
  rw [Option.bind_eq_some_iff] at hc
  obtain ⟨v1, hv1, hc⟩ := hc
  rw [Option.bind_eq_some_iff] at hc
  obtain ⟨v2, hv2, hc⟩ := hc
  rw [Option.bind_eq_some_iff] at hc
  obtain ⟨r, hr, hc⟩ := hc
  obtain ⟨ri, r1, r2, _, _⟩ := IntParam.clone_some hr
  split_ifs at hc with hra
  rw [Option.bind_eq_some_iff] at hc
  obtain ⟨ns, hns, hc⟩ := hc
  have hsi := IntParam.setValue_inv ri (some (((v1 : ℝ) + (v2 : ℝ)) / 2))
  obtain ⟨_, hb⟩ := IntParam.neighbours_mem hsi 2 draws ns hns
  have hf : (r.setValue (some (((v1 : ℝ) + (v2 : ℝ)) / 2))).st.lower = p.lower ∧
      (r.setValue (some (((v1 : ℝ) + (v2 : ℝ)) / 2))).st.upper = p.upper := by
    by_cases hm : (r.lower : ℝ) ≤ ((v1 : ℝ) + (v2 : ℝ)) / 2 ∧ ((v1 : ℝ) + (v2 : ℝ)) / 2 ≤ (r.upper : ℝ)
    · rw [(ri.setValue_ok hm).1]; exact ⟨r1, r2⟩
    · unfold IntParam.setValue
      simp only [if_pos hm]
      exact ⟨r1, r2⟩
  rw [hf.1, hf.2] at hb
  split at hc
  · simp only [Option.pure_def, Option.some.injEq, Prod.mk.injEq] at hc
    rw [← hc.1, ← hc.2]
    obtain ⟨v, e1, e2, e3, _⟩ := (hb _ (List.mem_cons_self)).2.2.2
    obtain ⟨w, f1, f2, f3, _⟩ := (hb _ (List.mem_cons_of_mem _ List.mem_cons_self)).2.2.2
    exact ⟨⟨v, e1, e2, e3⟩, ⟨w, f1, f2, f3⟩⟩
  · simp at hc

/-- **C33 (integer, grid)**: the grid has the requested size, stays within the bounds and starts
at the lower bound; with the end point included it ends at the upper bound. -/
theorem C33_int_grid {p : IntParam} (h : p.Used) (size : ℕ) (endpoint : Bool) :
    (p.grid size endpoint).length = size ∧
      (∀ v ∈ p.grid size endpoint, p.lower ≤ v ∧ v ≤ p.upper) ∧
      (1 ≤ size → (p.grid size endpoint).head? = some p.lower) ∧
      (2 ≤ size → (p.grid size true).getLast? = some p.upper) := by
  have hi := h.inv
  have hm := IntParam.margin_bounds
  have hl : p.normalizedToValue 0 = p.lower := by
    unfold IntParam.normalizedToValue
    rw [hi.finv.normalizedToValue_zero, hi.fl]
    exact rnd_eq_of_near (by linarith [hm.2]) (by linarith [hm.1])
  have hu : p.normalizedToValue 1 = p.upper := by
    unfold IntParam.normalizedToValue
    rw [hi.finv.normalizedToValue_one, hi.fu]
    exact rnd_eq_of_near (by linarith [hm.1]) (by linarith [hm.2])
  refine ⟨by simp [IntParam.grid, linspace01], ?_, ?_, ?_⟩
  · intro v hv
    unfold IntParam.grid at hv
    rw [List.mem_map] at hv
    obtain ⟨n, hn, rfl⟩ := hv
    obtain ⟨a, b⟩ := linspace01_mem hn
    exact hi.rnd_mem (hi.finv.normalizedToValue_mem a b)
  · intro hs
    unfold IntParam.grid
    rw [List.head?_map, linspace01_head _ hs]
    simp [hl]
  · intro hs
    unfold IntParam.grid
    rw [List.getLast?_map, linspace01_last hs]
    simp [hu]

/-! ## C33: categoricals -/

section Categorical

variable {α : Type*} [DecidableEq α]

/-- A sampled copy holds the drawn choice. -/
theorem cat_sample {p q : CatParam α} {draw : ℕ} (hq : p.sample draw = some q) :
    q.value = p.choices[draw]? ∧ q.choices = p.choices ∧ ∃ v, q.value = some v ∧ v ∈ p.choices := by
  unfold CatParam.sample at hq
  simp only [Option.bind_eq_bind] at hq
  rw [Option.bind_eq_some_iff] at hq
  obtain ⟨v, hv, hq⟩ := hq
  rw [Option.bind_eq_some_iff] at hq
  obtain ⟨r, hr, hq⟩ := hq
  unfold CatParam.sampleValue at hv
  have hmem : v ∈ p.choices := List.mem_of_getElem? hv
  obtain ⟨r1, _⟩ := CatParam.clone_some hr
  obtain ⟨i, _, hs⟩ := CatParam.setValue_mem (p := r) (v := v) (by rw [r1]; exact hmem)
  rw [hs] at hq
  simp only [Bool.false_eq_true, if_false, Option.pure_def, Option.some.injEq] at hq
  subst hq
  exact ⟨hv.symm, r1, v, rfl, hmem⟩

/-- **C33 (categorical, sampling)**: a sampled copy holds one of the choices. -/
theorem C33_cat_sample (p q : CatParam α) (draw : ℕ) (hq : p.sample draw = some q) :
    ∃ v, q.value = some v ∧ v ∈ p.choices := (cat_sample hq).2.2

/-- Every choice can be sampled, unless an illegal value is held. -/
theorem C33_cat_sample_total {p : CatParam α} (h : p.Used)
    (hv : ∀ v, p.value = some v → v ∈ p.choices) (draw : ℕ) (hd : draw < p.choices.length) :
    ∃ q, p.sample draw = some q ∧ q.value = p.choices[draw]? := by
  have hi := h.inv
  obtain ⟨r, hr⟩ := CatParam.clone_total hi hv
  obtain ⟨r1, _⟩ := CatParam.clone_some hr
  have hg : p.choices[draw]? = some p.choices[draw] := List.getElem?_eq_getElem hd
  obtain ⟨i, _, hs⟩ := CatParam.setValue_mem (p := r) (v := p.choices[draw])
    (by rw [r1]; exact List.getElem_mem hd)
  refine ⟨⟨r.choices, r.dflt, r.dfltIndex, r.hasPrior, r.choice, r.score, some p.choices[draw], some i⟩,
    ?_, hg.symm⟩
  unfold CatParam.sample CatParam.sampleValue
  simp only [hg, hr, Option.bind_eq_bind, Option.bind_some, hs, Bool.false_eq_true, if_false,
    Option.pure_def]

/-- A neighbour holds a choice at another index than the parameter's. -/
theorem cat_neighbour {p q : CatParam α} {i d : ℕ} (hidx : p.valueIndex = some i)
    (hq : p.neighbour d = some q) :
    ∃ j, j ≠ i ∧ q.value = p.choices[j]? ∧ ∃ v, q.value = some v ∧ v ∈ p.choices := by
  unfold CatParam.neighbour at hq
  simp only [Option.bind_eq_bind] at hq
  rw [Option.bind_eq_some_iff] at hq
  obtain ⟨v, hv, hq⟩ := hq
  rw [Option.bind_eq_some_iff] at hq
  obtain ⟨r, hr, hq⟩ := hq
  rw [Option.bind_eq_some_iff] at hv
  obtain ⟨j, hj, hv⟩ := hv
  have hmem : v ∈ p.choices := List.mem_of_getElem? hv
  obtain ⟨r1, _⟩ := CatParam.clone_some hr
  obtain ⟨k, _, hs⟩ := CatParam.setValue_mem (p := r) (v := v) (by rw [r1]; exact hmem)
  rw [hs] at hq
  simp only [Bool.false_eq_true, if_false, Option.pure_def, Option.some.injEq] at hq
  subst hq
  refine ⟨j, ?_, hv.symm, v, rfl, hmem⟩
  have hja := List.mem_of_getElem? hj
  unfold CatParam.available at hja
  rw [hidx] at hja
  simp only [List.mem_append] at hja
  rcases hja with hja | hja
  · rw [List.mem_take_iff_getElem] at hja
    obtain ⟨m, hm, he⟩ := hja
    simp only [List.getElem_range] at he
    omega
  · rw [List.mem_drop_iff_getElem] at hja
    obtain ⟨m, hm, he⟩ := hja
    simp only [List.getElem_range] at he
    omega

/-- **C33 (categorical, neighbours)**: for a parameter holding its legal value, each neighbour
holds another choice. -/
theorem C33_cat_neighbours {p : CatParam α} (h : p.Used) (v : α)
    (hv : (p.setValue (some v)).raised = false) (draws : List ℕ) (ns : List (CatParam α))
    (hn : (p.setValue (some v)).st.neighbours draws = some ns) :
    ns.length = draws.length ∧ ∀ q ∈ ns, ∃ w, q.value = some w ∧ w ∈ p.choices ∧ w ≠ v := by
  have hi := h.inv
  by_cases hm : v ∈ p.choices
  swap
  · rw [CatParam.setValue_not_mem hm] at hv; simp at hv
  obtain ⟨i, hix, hs⟩ := CatParam.setValue_mem hm
  obtain ⟨i', hix', hget⟩ := CatParam.index_some hm
  rw [hix] at hix'
  simp only [Option.some.injEq] at hix'
  subst hix'
  rw [hs] at hn
  unfold CatParam.neighbours at hn
  simp only [reduceCtorEq, if_false] at hn
  obtain ⟨hlen, hall⟩ := mapM_some hn
  refine ⟨hlen, ?_⟩
  intro q hq
  obtain ⟨d, _, hd⟩ := hall q hq
  obtain ⟨j, hji, hj, w, hw, hwm⟩ := cat_neighbour (p := { p with value := some v, valueIndex := some i }) rfl hd
  refine ⟨w, hw, hwm, ?_⟩
  rintro rfl
  rw [hw] at hj
  simp only at hj
  obtain ⟨l1, g1⟩ := List.getElem?_eq_some_iff.mp hj.symm
  obtain ⟨l2, g2⟩ := List.getElem?_eq_some_iff.mp hget
  exact hji ((List.Nodup.getElem_inj_iff hi.nodup).mp (g1.trans g2.symm))

/-- **C33 (categorical, mutation)**: a mutated parameter holds one of the choices (those of the
parent in the simple strategy), other than the value of the parent. -/
theorem C33_cat_mutate {p : CatParam α} (parent : Option (CatParam α)) (s : Strategy)
    (draw : ℕ) (q : CatParam α) (hq : p.mutate parent s draw = some q) :
    (∃ v, q.value = some v ∧
      v ∈ (if s = .simple then parent.getD p else p).choices) ∧
      q.value ≠ (parent.getD p).value := by
  unfold CatParam.mutate at hq
  rw [Option.bind_eq_bind, Option.bind_eq_some_iff] at hq
  obtain ⟨c, hc, hq⟩ := hq
  split_ifs at hq with he
  simp only [Option.pure_def, Option.some.injEq] at hq
  subst hq
  refine ⟨?_, fun e => he e.symm⟩
  unfold CatParam.mutant at hc
  cases s with
  | simple => simpa using C33_cat_sample _ _ _ hc
  | localSearch =>
    simp only [reduceCtorEq, if_false]
    simp only at hc
    rw [Option.bind_eq_some_iff] at hc
    obtain ⟨ns, hns, hc⟩ := hc
    unfold CatParam.neighbours at hns
    split_ifs at hns with hi
    obtain ⟨i, hi⟩ := Option.ne_none_iff_exists'.mp hi
    obtain ⟨d, _, hd⟩ := (mapM_some hns).2 c (List.mem_of_mem_head? hc)
    obtain ⟨_, _, _, v, hv, hvm⟩ := cat_neighbour hi hd
    exact ⟨v, hv, hvm⟩
  | other => simp at hc

/-- **C33 (categorical, crossover)**: the children swap the values of the parents, and each value
is one of the choices of the parent that receives it. -/
theorem C33_cat_crossover {p p1 : CatParam α} (p2 : Option (CatParam α)) (a b : CatParam α)
    (hc : p.crossover p1 p2 = some (a, b)) :
    a.value = (p2.getD p).value ∧ b.value = p1.value ∧
      (∃ v, a.value = some v ∧ v ∈ p1.choices) ∧
      (∃ v, b.value = some v ∧ v ∈ (p2.getD p).choices) := by
  unfold CatParam.crossover at hc
  simp only [Option.bind_eq_bind] at hc
  rw [Option.bind_eq_some_iff] at hc
  obtain ⟨v1, hv1, hc⟩ := hc
  rw [Option.bind_eq_some_iff] at hc
  obtain ⟨v2, hv2, hc⟩ := hc
  rw [Option.bind_eq_some_iff] at hc
  obtain ⟨r1, hr1, hc⟩ := hc
  obtain ⟨e1, _⟩ := CatParam.clone_some hr1
  by_cases hm1 : v2 ∈ r1.choices
  swap
  · rw [CatParam.setValue_not_mem hm1] at hc; simp at hc
  obtain ⟨i1, _, hs1⟩ := CatParam.setValue_mem hm1
  rw [hs1] at hc
  simp only [Bool.false_eq_true, if_false] at hc
  rw [Option.bind_eq_some_iff] at hc
  obtain ⟨r2, hr2, hc⟩ := hc
  obtain ⟨e2, _⟩ := CatParam.clone_some hr2
  by_cases hm2 : v1 ∈ r2.choices
  swap
  · rw [CatParam.setValue_not_mem hm2] at hc; simp at hc
  obtain ⟨i2, _, hs2⟩ := CatParam.setValue_mem hm2
  rw [hs2] at hc
  simp only [Bool.false_eq_true, if_false, Option.pure_def, Option.some.injEq, Prod.mk.injEq] at hc
  obtain ⟨rfl, rfl⟩ := hc
  exact ⟨hv2.symm, hv1.symm, ⟨v2, rfl, by rw [← e1]; exact hm1⟩, ⟨v1, rfl, by rw [← e2]; exact hm2⟩⟩

end Categorical

/-! ## C34: setting a value -/

/-- **C34 (float)**: setting a value raises exactly when it is out of bounds, and then the
parameter is unchanged; otherwise the value is stored. -/
theorem C34_float_set_value (p : FloatParam) (v : ℝ) :
    ((p.setValue (some v)).raised = true ↔ ¬ (p.lower ≤ v ∧ v ≤ p.upper)) ∧
      ((p.setValue (some v)).raised = true → (p.setValue (some v)).st = p) ∧
      ((p.setValue (some v)).raised = false → (p.setValue (some v)).st.value = some v) := by
  unfold FloatParam.setValue
  simp only
  by_cases h : p.lower ≤ v ∧ v ≤ p.upper
  · simp [h]
  · rw [if_pos h]
    exact ⟨⟨fun _ => h, fun _ => rfl⟩, fun _ => rfl, by simp⟩

/-- **C34 (integer)**: setting a value raises exactly when it is out of bounds, and then the
parameter is unchanged; otherwise the nearest integer is stored. -/
theorem C34_int_set_value {p : IntParam} (h : p.Used) (v : ℝ) :
    ((p.setValue (some v)).raised = true ↔ ¬ ((p.lower : ℝ) ≤ v ∧ v ≤ (p.upper : ℝ))) ∧
      ((p.setValue (some v)).raised = true → (p.setValue (some v)).st = p) ∧
      ((p.setValue (some v)).raised = false →
        ∃ n : ℤ, (p.setValue (some v)).st.value = some n ∧ |v - n| ≤ 1 / 2) := by
  by_cases hv : (p.lower : ℝ) ≤ v ∧ v ≤ (p.upper : ℝ)
  · rw [(h.inv.setValue_ok hv).1]
    refine ⟨by simp [hv], by simp, ?_⟩
    intro _
    refine ⟨rnd v, rfl, ?_⟩
    rw [abs_sub_comm]
    exact rnd_near v
  · unfold IntParam.setValue
    dsimp only
    rw [if_pos hv]
    exact ⟨⟨fun _ => hv, fun _ => rfl⟩, fun _ => rfl, by simp⟩

/-- **C34 (constant)**: a constant never changes, and setting anything else raises. -/
theorem C34_const_set_value {α : Type*} [DecidableEq α] (p : ConstParam α) (v : Option α) :
    (p.setValue v).st = p ∧ ((p.setValue v).raised = true ↔ v ≠ some p.value) := by
  unfold ConstParam.setValue
  by_cases h : v = some p.value
  · simp [h]
  · simp [h]

/-- **C34 (categorical), first half**: setting a value raises exactly when it is not one of the
choices, and a choice is stored.  What is missing: the parameter is not unchanged after a rejected
value, see `C34_categorical_fails`. -/
theorem C34_cat_set_value_partial {α : Type*} [DecidableEq α] (p : CatParam α) (v : α) :
    ((p.setValue (some v)).raised = true ↔ v ∉ p.choices) ∧
      ((p.setValue (some v)).raised = false → (p.setValue (some v)).st.value = some v) := by
  by_cases h : v ∈ p.choices
  · obtain ⟨i, _, hs⟩ := CatParam.setValue_mem h
    rw [hs]
    simp [h]
  · rw [CatParam.setValue_not_mem h]
    simp [h]

/-- **C34 fails for categoricals**: for every parameter and every value that is not a choice,
`set_value` raises but the invalid value replaces the previous one, and the parameter can no longer
be copied or sampled. -/
theorem C34_categorical_fails {α : Type*} [DecidableEq α] (p : CatParam α) (v : α)
    (h : v ∉ p.choices) :
    (p.setValue (some v)).raised = true ∧ (p.setValue (some v)).st.value = some v ∧
      (p.setValue (some v)).st.clone = none ∧ ∀ d, (p.setValue (some v)).st.sample d = none := by
  rw [CatParam.setValue_not_mem h]
  have hc : ({ p with value := some v } : CatParam α).clone = none := by
    by_contra hne
    obtain ⟨q, hq⟩ := Option.ne_none_iff_exists'.mp hne
    obtain ⟨_, e2, _, _, e5⟩ := CatParam.clone_some hq
    exact h (e5 v e2)
  refine ⟨rfl, rfl, hc, ?_⟩
  intro d
  unfold CatParam.sample
  cases hs : ({ p with value := some v } : CatParam α).sampleValue d with
  | none => rfl
  | some w => simp [hc]

/-! ## C55: a parameter always holds a legal value -/

/-- **C55 (float)**: after any sequence of method calls, raising or not, a float parameter holds
no value or one within its bounds, and so does its default. -/
theorem C55_float_always_legal {p : FloatParam} (h : p.Used) :
    (∀ v, p.value = some v → p.lower ≤ v ∧ v ≤ p.upper) ∧
      (∀ v, p.dflt = some v → p.lower ≤ v ∧ v ≤ p.upper) :=
  ⟨h.inv.value, h.inv.dflt⟩

/-- Integer parameters used without `load_from`. -/
inductive IntParam.Set : IntParam → Prop where
  | make {l u : ℝ} {log fid : Bool} {d : Option ℝ} {s : ℝ} {p : IntParam} :
      IntParam.make l u log fid d s = some p → IntParam.Set p
  | setValue {p : IntParam} (v : Option ℝ) : IntParam.Set p → IntParam.Set (p.setValue v).st
  | setDefault {p : IntParam} (v : Option ℝ) : IntParam.Set p → IntParam.Set (p.setDefault v).st
  | setConfidence {p : IntParam} (s : Option ℝ) :
      IntParam.Set p → IntParam.Set (p.setConfidence s).st

theorem IntParam.Set.used {p : IntParam} (h : IntParam.Set p) : p.Used := by
  induction h with
  | make h => exact .make h
  | setValue v _ ih => exact .setValue v ih
  | setDefault v _ ih => exact .setDefault v ih
  | setConfidence s _ ih => exact .setConfidence s ih

/-- **C55 (integer), partial**: an integer parameter that is not loaded from a saved configuration
holds no value or one within its bounds.  What is missing: `load_from`
(`C55_int_load_fails`) and the default (`C56_int_default_fails`). -/
theorem C55_int_always_legal_partial {p : IntParam} (h : IntParam.Set p) :
    ∀ v, p.value = some v → p.lower ≤ v ∧ v ≤ p.upper := by
  induction h with
  | make h => simp [(IntParam.make_inv h).2.2.2.1]
  | @setValue p v hp ih =>
    cases v with
    | none => simp [IntParam.setValue]
    | some v =>
      by_cases hv : (p.lower : ℝ) ≤ v ∧ v ≤ (p.upper : ℝ)
      · obtain ⟨e, a, b⟩ := hp.used.inv.setValue_ok hv
        rw [e]
        intro w hw
        simp only [Option.some.injEq] at hw
        subst hw
        exact ⟨a, b⟩
      · unfold IntParam.setValue
        simp only [if_pos hv]
        exact ih
  | @setDefault p v _ ih =>
    cases v with
    | none => exact ih
    | some v => exact ih
  | @setConfidence p s _ ih =>
    cases s with
    | none => exact ih
    | some s => exact ih

/-- **C55 fails for integers**: every integer parameter accepts every number out of its bounds
from a saved configuration; it then holds the illegal value, next to the old normalised value, and
cannot be copied any more. -/
theorem C55_int_load_fails {p : IntParam} (h : p.Used) (n : ℤ) (hn : ¬ (p.lower ≤ n ∧ n ≤ p.upper)) :
    (p.loadFrom n).raised = false ∧ (p.loadFrom n).st.Used ∧ (p.loadFrom n).st.value = some n ∧
      (p.loadFrom n).st.normalized = p.normalized ∧ (p.loadFrom n).st.clone = none := by
  refine ⟨rfl, .loadFrom _ h, by simp [IntParam.loadFrom], rfl, ?_⟩
  by_contra hne
  obtain ⟨q, hq⟩ := Option.ne_none_iff_exists'.mp hne
  obtain ⟨_, _, _, e4, e5⟩ := IntParam.clone_some hq
  exact hn (e5 n (by rw [e4]; simp [IntParam.loadFrom]))

/-- **C55 (categorical), partial**: a categorical parameter holds one of its choices after any
sequence of method calls none of which raised. -/
theorem C55_cat_legal_partial {α : Type*} [DecidableEq α] (p : CatParam α)
    (hp : ∀ v, p.value = some v → v ∈ p.choices) (ops : List (Option α))
    (hok : ∀ i (hi : i < ops.length),
      ((ops.take i).foldl (fun q v => (CatParam.setValue q v).st) p |>.setValue ops[i]).raised =
        false) :
    ∀ v, (ops.foldl (fun q v => (CatParam.setValue q v).st) p).value = some v → v ∈ p.choices := by
  induction ops generalizing p with
  | nil => simpa using hp
  | cons o ops ih =>
    have h0 := hok 0 (by simp)
    simp only [List.take_zero, List.foldl_nil, List.getElem_cons_zero] at h0
    have hch : (p.setValue o).st.choices = p.choices ∧
        ∀ v, (p.setValue o).st.value = some v → v ∈ p.choices := by
      cases o with
      | none => simp [CatParam.setValue]
      | some v =>
        by_cases hm : v ∈ p.choices
        · obtain ⟨i, _, hs⟩ := CatParam.setValue_mem hm
          rw [hs]
          simpa using hm
        · rw [CatParam.setValue_not_mem hm] at h0; simp at h0
    have := ih (p.setValue o).st (by rw [hch.1]; exact hch.2) (by
      intro i hi
      have := hok (i + 1) (by simpa using hi)
      simpa using this)
    rw [hch.1] at this
    simpa using this

/-! ## C56: setting a default -/

/-- **C56 (float)**: a default out of bounds is rejected and the parameter is unchanged. -/
theorem C56_float_set_default (p : FloatParam) (v : ℝ) :
    ((p.setDefault (some v)).raised = true ↔ ¬ (p.lower ≤ v ∧ v ≤ p.upper)) ∧
      ((p.setDefault (some v)).raised = true → (p.setDefault (some v)).st = p) ∧
      ((p.setDefault (some v)).raised = false →
        (p.setDefault (some v)).st.dflt = some v ∧ (p.setDefault (some v)).st.hasPrior = true) := by
  unfold FloatParam.setDefault
  simp only
  by_cases h : p.lower ≤ v ∧ v ≤ p.upper
  · simp [h]
  · rw [if_pos h]
    exact ⟨⟨fun _ => h, fun _ => rfl⟩, fun _ => rfl, by simp⟩

/-- **C56 (categorical)**: a default that is not a choice is rejected and the parameter is
unchanged. -/
theorem C56_cat_set_default {α : Type*} [DecidableEq α] (p : CatParam α) (v : α) :
    ((p.setDefault (some v)).raised = true ↔ v ∉ p.choices) ∧
      ((p.setDefault (some v)).raised = true → (p.setDefault (some v)).st = p) ∧
      ((p.setDefault (some v)).raised = false →
        (p.setDefault (some v)).st.dflt = some v ∧ (p.setDefault (some v)).st.hasPrior = true) := by
  unfold CatParam.setDefault
  simp only
  by_cases h : v ∈ p.choices
  · simp [h]
  · simp [h]

/-- **C56 (integer), first half**: exactly the numbers that round to an integer out of bounds are
rejected.  What is missing: the parameter is not unchanged then. -/
theorem C56_int_set_default_partial {p : IntParam} (h : p.Used) (v : ℝ) :
    (p.setDefault (some v)).raised = true ↔ ¬ (p.lower ≤ rnd v ∧ rnd v ≤ p.upper) := by
  have hi := h.inv
  have hf := (C56_float_set_default p.floatHp (rnd v : ℝ)).1
  unfold IntParam.setDefault
  simp only
  rw [hf, not_iff_not]
  constructor
  · intro hx
    have := hi.rnd_mem hx
    simpa using this
  · intro hx
    exact hi.mem_float hx.1 hx.2

/-- **C56 fails for integers**: for every parameter, a rejected default is stored all the same,
and from then on the parameter cannot be copied or sampled. -/
theorem C56_int_default_fails {p : IntParam} (h : p.Used) (v : ℝ)
    (hv : ¬ (p.lower ≤ rnd v ∧ rnd v ≤ p.upper)) :
    (p.setDefault (some v)).raised = true ∧ (p.setDefault (some v)).st.dflt = some (rnd v) ∧
      (p.setDefault (some v)).st.clone = none ∧
      ∀ b u n, (p.setDefault (some v)).st.sample b u n = none := by
  have hc : (p.setDefault (some v)).st.clone = none := by
    have hm : IntParam.make p.lower p.upper p.log p.isFidelity (some ((rnd v : ℤ) : ℝ)) p.choice =
        none := by
      unfold IntParam.make
      simp only [rnd_intCast, Option.map_some]
      split_ifs with h1 h2 h3
      · rfl
      · rfl
      · rfl
      · exact absurd (by simpa only [Option.any_some, decide_eq_true_eq] using hv) h3
    unfold IntParam.clone IntParam.setDefault
    simp [hm]
  refine ⟨(C56_int_set_default_partial h v).mpr hv, rfl, hc, ?_⟩
  intro b u n
  unfold IntParam.sample
  rw [hc]
  rfl

/-! ## C57: the prior of a categorical parameter -/

theorem sum_div (l : List ℝ) (c : ℝ) : (l.map (· / c)).sum = l.sum / c := by
  induction l with
  | nil => simp
  | cons a l ih => simp [ih, add_div]

theorem sum_set_replicate (n d : ℕ) (s : ℝ) (h : d < n) :
    ((List.replicate n (1 : ℝ)).set d s).sum = n - 1 + s := by
  induction n generalizing d with
  | zero => omega
  | succ n ih =>
    cases d with
    | zero => simp [List.replicate_succ]; ring
    | succ d =>
      simp only [List.replicate_succ, List.set_cons_succ, List.sum_cons]
      rw [ih d (by omega)]
      push_cast
      ring

/-- **C57**: for a parameter with a default there is one probability per choice, each of them is
at least 0, they sum to 1, and the default is exactly `score` times as likely as every other
choice. -/
theorem C57_prior_probabilities {α : Type*} [DecidableEq α] {p : CatParam α} (h : p.Used) (x : α)
    (hx : p.dflt = some x) :
    ∃ probs d, p.priorProbabilities = some probs ∧ p.choices[d]? = some x ∧
      probs.length = p.choices.length ∧ (∀ q ∈ probs, 0 ≤ q) ∧ probs.sum = 1 ∧
      ∀ j, j < p.choices.length → j ≠ d →
        probs.getD d 0 = p.score * probs.getD j 0 ∧ 0 < probs.getD j 0 := by
  have hi := h.inv
  obtain ⟨d, hd, hg⟩ := CatParam.index_some (hi.dflt x hx)
  have hdi : p.dfltIndex = some d := by rw [hi.dfltIndex, hx]; exact hd
  obtain ⟨hlt, _⟩ := List.getElem?_eq_some_iff.mp hg
  have h2 := hi.two
  have hsum := sum_set_replicate p.choices.length d p.score hlt
  have h2' : (2 : ℝ) ≤ p.choices.length := by exact_mod_cast h2
  have hs0 : (0 : ℝ) ≤ p.score := Nat.cast_nonneg _
  have hpos : (0 : ℝ) < ((List.replicate p.choices.length (1 : ℝ)).set d p.score).sum := by
    rw [hsum]; linarith
  refine ⟨_, d, by unfold CatParam.priorProbabilities; rw [hdi]; rfl, hg, by simp, ?_, ?_, ?_⟩
  · intro q hq
    rw [List.mem_map] at hq
    obtain ⟨w, hw, rfl⟩ := hq
    apply div_nonneg _ hpos.le
    rcases List.mem_or_eq_of_mem_set hw with hw | rfl
    · rw [List.mem_replicate] at hw
      rw [hw.2]; norm_num
    · exact hs0
  · rw [sum_div, div_self hpos.ne']
  · intro j hj hjd
    rw [List.getD_eq_getElem?_getD, List.getD_eq_getElem?_getD, List.getElem?_map,
      List.getElem?_map, List.getElem?_set_self (by simpa using hlt),
      List.getElem?_set_ne (Ne.symm hjd)]
    rw [List.getElem?_eq_getElem (by simpa using hj)]
    simp only [List.getElem_replicate, Option.map_some, Option.getD_some]
    constructor
    · ring
    · exact div_pos one_pos hpos

/-! ## C58: copies -/

/-- **C58 (float), partial**: a copy of a parameter, whatever has been done with it, agrees with
it in every field except possibly the confidence score.  What is missing:
`C58_confidence_fails`. -/
theorem C58_float_clone_partial {p : FloatParam} (h : p.Used) :
    ∃ q, p.clone = some q ∧ q.lower = p.lower ∧ q.upper = p.upper ∧ q.log = p.log ∧
      q.isFidelity = p.isFidelity ∧ q.dflt = p.dflt ∧ q.hasPrior = p.hasPrior ∧
      q.value = p.value ∧ q.normalized = p.normalized ∧ (p.score = p.choice → q = p) := by
  refine ⟨_, h.inv.clone_eq, rfl, rfl, rfl, rfl, rfl, rfl, rfl, rfl, ?_⟩
  intro hs
  cases p
  simp_all

/-- **C58 (categorical), partial**: a copy has the same choices, value, default and prior flag. -/
theorem C58_cat_clone_partial {α : Type*} [DecidableEq α] {p : CatParam α} (h : p.Used)
    (hv : ∀ v, p.value = some v → v ∈ p.choices) :
    ∃ q, p.clone = some q ∧ q.choices = p.choices ∧ q.value = p.value ∧ q.dflt = p.dflt ∧
      q.hasPrior = p.hasPrior ∧ q.dfltIndex = p.dfltIndex := by
  have hi := h.inv
  obtain ⟨q, hq⟩ := CatParam.clone_total hi hv
  obtain ⟨e1, e2, _⟩ := CatParam.clone_some hq
  refine ⟨q, hq, e1, e2, ?_⟩
  unfold CatParam.clone at hq
  rw [Option.bind_eq_bind, Option.bind_eq_some_iff] at hq
  obtain ⟨r, hr, hq⟩ := hq
  obtain ⟨_, f2, _, _, _, _, _, _, f9, f10⟩ := CatParam.make_some hr
  have key : r.dflt = p.dflt ∧ r.hasPrior = p.hasPrior ∧ r.dfltIndex = p.dfltIndex :=
    ⟨f2, by rw [f10, hi.prior], by rw [f9, hi.dfltIndex]⟩
  cases hval : p.value with
  | none =>
    rw [hval] at hq
    simp only [Option.pure_def, Option.some.injEq] at hq
    rw [← hq]; exact key
  | some v =>
    rw [hval] at hq
    simp only at hq
    split_ifs at hq
    simp only [Option.pure_def, Option.some.injEq] at hq
    rw [← hq]
    unfold CatParam.setValue
    simp only
    cases CatParam.index r.choices v <;> exact key

/-- **C58 (integer), partial**: a copy that can be made has the same bounds, value, default and
prior flag. -/
theorem C58_int_clone_partial {p q : IntParam} (hq : p.clone = some q) :
    q.lower = p.lower ∧ q.upper = p.upper ∧ q.value = p.value ∧ q.dflt = p.dflt ∧
      q.log = p.log ∧ q.isFidelity = p.isFidelity := by
  obtain ⟨_, e1, e2, e3, _⟩ := IntParam.clone_some hq
  refine ⟨e1, e2, e3, ?_⟩
  unfold IntParam.clone at hq
  rw [Option.bind_eq_bind, Option.bind_eq_some_iff] at hq
  obtain ⟨r, hr, hq⟩ := hq
  obtain ⟨_, _, _, _, f5, f6, f7, _⟩ := IntParam.make_inv hr
  have hd : (p.dflt.map (fun (d : ℤ) => (d : ℝ))).map rnd = p.dflt := by
    cases p.dflt with
    | none => rfl
    | some d => simp
  rw [hd] at f5
  have key : r.dflt = p.dflt ∧ r.log = p.log ∧ r.isFidelity = p.isFidelity := ⟨f5, f7, f6⟩
  cases hval : p.value with
  | none =>
    rw [hval] at hq
    simp only [Option.pure_def, Option.some.injEq] at hq
    rw [← hq]; exact key
  | some v =>
    rw [hval] at hq
    simp only at hq
    split_ifs at hq
    simp only [Option.pure_def, Option.some.injEq] at hq
    rw [← hq]
    unfold IntParam.setValue
    simp only
    split_ifs <;> exact key

/-- **C58 fails for the confidence**: a confidence set on a parameter is lost in its copies, for
every float, integer and categorical parameter; the copies get the confidence of the constructor. -/
theorem C58_confidence_fails :
    (∀ (p : FloatParam), p.Used → ∀ s, s ≠ p.choice →
      ∃ q, (p.setConfidence (some s)).st.clone = some q ∧
        (p.setConfidence (some s)).st.score = s ∧ q.score ≠ s) ∧
    (∀ (p q : IntParam), ∀ s, s ≠ p.choice → (p.setConfidence (some s)).st.clone = some q →
        (p.setConfidence (some s)).st.score = s ∧ q.score ≠ s) ∧
    (∀ (p q : CatParam String), ∀ s, s ≠ p.choice → (p.setConfidence (some s)).st.clone = some q →
        (p.setConfidence (some s)).st.score = s ∧ q.score ≠ s) := by
  refine ⟨?_, ?_, ?_⟩
  · intro p h s hs
    refine ⟨_, (FloatParam.Used.setConfidence (some s) h).inv.clone_eq, rfl, ?_⟩
    exact fun he => hs he.symm
  · intro p q s hs hq
    refine ⟨rfl, ?_⟩
    unfold IntParam.clone at hq
    rw [Option.bind_eq_bind, Option.bind_eq_some_iff] at hq
    obtain ⟨r, hr, hq⟩ := hq
    have hrs : r.score = p.choice := by
      unfold IntParam.make at hr
      simp only at hr
      split_ifs at hr
      rw [Option.bind_eq_bind, Option.bind_eq_some_iff] at hr
      obtain ⟨f, _, hr⟩ := hr
      simp only [Option.pure_def, Option.some.injEq] at hr
      rw [← hr]
      rfl
    have hqs : q.score = r.score := by
      split at hq
      · simp only [Option.pure_def, Option.some.injEq] at hq
        rw [← hq]
      · simp only at hq
        split_ifs at hq
        simp only [Option.pure_def, Option.some.injEq] at hq
        rw [← hq]
        unfold IntParam.setValue
        simp only
        split_ifs <;> rfl
    rw [hqs, hrs]
    exact fun he => hs he.symm
  · intro p q s hs hq
    refine ⟨rfl, ?_⟩
    unfold CatParam.clone at hq
    rw [Option.bind_eq_bind, Option.bind_eq_some_iff] at hq
    obtain ⟨r, hr, hq⟩ := hq
    have hrs : r.score = p.choice := (CatParam.make_some hr).2.2.1
    have hqs : q.score = r.score := by
      split at hq
      · simp only [Option.pure_def, Option.some.injEq] at hq
        rw [← hq]
      · rename_i v _
        simp only at hq
        split_ifs at hq
        simp only [Option.pure_def, Option.some.injEq] at hq
        rw [← hq]
        unfold CatParam.setValue
        simp only
        cases CatParam.index r.choices v <;> rfl
    rw [hqs, hrs]
    exact fun he => hs he.symm

/-! ## Concrete cases -/

section Examples

noncomputable def lrParam : FloatParam := ⟨1 / 100, 1, true, false, some (1 / 10), true, 1 / 8, 1 / 8, none, none⟩

theorem lrParam_used : lrParam.Used := by
  refine .make (l := 1 / 100) (u := 1) (log := true) (fid := false) (d := some (1 / 10)) (s := 1 / 8) ?_
  rw [FloatParam.make_some (by norm_num) (by norm_num)]
  · rfl
  · intro x hx
    simp only [Option.some.injEq] at hx
    subst hx
    norm_num

/-- The learning rate set to 1/2 and then, in vain, to 7: the hypotheses of the float theorems are
met by a parameter that holds a value. -/
example : ((lrParam.setValue (some (1 / 2))).st.setValue (some 7)).st.Used ∧
    ((lrParam.setValue (some (1 / 2))).st.setValue (some 7)).st.value = some (1 / 2) ∧
    ((lrParam.setValue (some (1 / 2))).st.setValue (some 7)).raised = true := by
  refine ⟨.setValue _ (.setValue _ lrParam_used), ?_⟩
  norm_num [FloatParam.setValue, lrParam]

/-- Two of the draws 3, 1/4, 1/2 are usable, so two neighbours are found. -/
example : ∃ ns, lrParam.neighbours 2 [3, 1 / 4, 1 / 2] = some ns := by
  apply C33_float_neighbours_progress lrParam_used
  norm_num [List.filter]

theorem layers_used : ∃ p : IntParam, p.Used ∧ p.lower = 1 ∧ p.upper = 5 ∧ p.value = none ∧
    p.dflt = some 3 ∧ p.isFidelity = false := by
  obtain ⟨f, _, h⟩ := IntParam.make_some (l := 1) (u := 5) (log := false) (fid := false)
    (d := some 3) (s := 1 / 4) (by norm_num) (by simp) (by simp)
  exact ⟨_, .make h, rfl, rfl, rfl, rfl, rfl⟩

/-- Sampling, setting 2.4 (stored as 2), and rejecting 7. -/
example : ∃ p : IntParam, p.Used ∧ (∀ b u n, ∃ q, p.sample b u n = some q) ∧
    (p.setValue (some 7)).raised = true ∧ (p.setValue (some 2.4)).raised = false ∧
    (p.setDefault (some 9)).raised = true ∧ (p.loadFrom 9).st.value = some 9 := by
  obtain ⟨p, hp, hl, hu, hv, hd, _⟩ := layers_used
  refine ⟨p, hp, ?_, ?_, ?_, ?_, ?_⟩
  · intro b u n
    apply C33_int_sample_total hp
    · intro x hx
      rw [hd] at hx
      simp only [Option.some.injEq] at hx
      subst hx
      rw [hl, hu]; norm_num
    · simp [hv]
  · rw [(C34_int_set_value hp 7).1, hl, hu]; norm_num
  · have := (C34_int_set_value hp 2.4).1
    rw [hl, hu] at this
    cases hr : (p.setValue (some 2.4)).raised with
    | false => rfl
    | true => rw [hr] at this; norm_num at this
  · rw [C56_int_set_default_partial hp 9, hl, hu]
    have : rnd (9 : ℝ) = 9 := by exact_mod_cast rnd_intCast 9
    rw [this]; norm_num
  · have : rnd (9 : ℝ) = 9 := by exact_mod_cast rnd_intCast 9
    simp [IntParam.loadFrom, this]

def actParam : CatParam String := ⟨["relu", "tanh", "gelu"], some "tanh", some 1, true, 4, 4, none, none⟩

theorem actParam_used : actParam.Used :=
  .make (c := ["relu", "tanh", "gelu"]) (d := some "tanh") (s := 4) (by rfl)

/-- The activation: sampling index 2 gives gelu, mutation of relu gives another choice, crossover
swaps, and an unknown value is rejected but stored. -/
example : ((actParam.sample 2).bind (·.value)) = some "gelu" ∧
    (((actParam.setValue (some "relu")).st.mutate none .simple 1).bind (·.value)) = some "tanh" ∧
    (((actParam.setValue (some "relu")).st.mutate none .localSearch 1).bind (·.value)) = some "gelu" ∧
    (((actParam.setValue (some "relu")).st.crossover (actParam.setValue (some "gelu")).st none).map
      (fun ab => (ab.1.value, ab.2.value))) = some (some "relu", some "gelu") ∧
    (actParam.setValue (some "elu")).raised = true ∧
    (actParam.setValue (some "elu")).st.value = some "elu" := by decide

example : actParam.dflt = some "tanh" := rfl

/-- Raising the confidence in the default from 4 to 6 is undone by a copy. -/
example : (actParam.setConfidence (some 6)).st.score = 6 ∧
    ((actParam.setConfidence (some 6)).st.clone.map (·.score)) = some 4 := by decide

end Examples

end Verif.Space
