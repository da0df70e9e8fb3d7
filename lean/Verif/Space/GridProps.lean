import Verif.Space.SpaceProps
import Mathlib.Data.List.Nodup
import Mathlib.Tactic.NormNum
import Mathlib.Tactic.FieldSimp
import Mathlib.Tactic.Ring
import Mathlib.Data.Fintype.Card
import Mathlib.Order.Interval.Finset.SuccPred
import Mathlib.Data.Int.Interval
import Mathlib.Analysis.SpecialFunctions.Pow.Real

/-!
# The grid of a search space (C35)
-/

namespace Verif.Space

/-! ## Lemmas -/

theorem mem_product {α : Type*} {ls : List (List α)} {vs : List α} :
    vs ∈ SearchSpace.product ls ↔ List.Forall₂ (fun l v => v ∈ l) ls vs := by
  induction ls generalizing vs with
  | nil => simp [SearchSpace.product]
  | cons l ls ih =>
    simp only [SearchSpace.product, List.mem_flatMap, List.mem_map]
    constructor
    · rintro ⟨a, ha, ws, hws, rfl⟩
      exact .cons ha (ih.mp hws)
    · intro h
      cases h with
      | cons h1 h2 => exact ⟨_, h1, _, ih.mpr h2, rfl⟩

theorem length_product {α : Type*} (ls : List (List α)) :
    (SearchSpace.product ls).length = (ls.map List.length).prod := by
  induction ls with
  | nil => rfl
  | cons l ls ih =>
    simp only [SearchSpace.product, List.length_flatMap, List.length_map, List.map_cons,
      List.prod_cons, ih]
    induction l with
    | nil => simp
    | cons a l _ => simp [Nat.add_mul, Nat.add_comm]

theorem nodup_product {α : Type*} {ls : List (List α)} (h : ∀ l ∈ ls, l.Nodup) :
    (SearchSpace.product ls).Nodup := by
  induction ls with
  | nil => simp [SearchSpace.product]
  | cons l ls ih =>
    rw [SearchSpace.product, List.nodup_flatMap]
    refine ⟨?_, ?_⟩
    · intro a _
      exact (ih fun m hm => h m (by simp [hm])).map (fun x y hxy => by simpa using hxy)
    · refine (h l (by simp)).imp ?_
      intro a b hab
      simp only [Function.onFun, List.disjoint_left, List.mem_map]
      rintro x ⟨ws, _, rfl⟩ ⟨vs, _, hv⟩
      simp only [List.cons.injEq] at hv
      exact hab hv.1.symm

/-- A product without duplicates has factors without duplicates, unless one is empty. -/
theorem nodup_of_product {α : Type*} {ls : List (List α)} (hne : ∀ l ∈ ls, l ≠ [])
    (h : (SearchSpace.product ls).Nodup) : ∀ l ∈ ls, l.Nodup := by
  induction ls with
  | nil => simp
  | cons l ls ih =>
    have hpne : SearchSpace.product ls ≠ [] := by
      rw [Ne, ← List.length_eq_zero_iff, length_product, List.prod_eq_zero_iff]
      intro h0
      obtain ⟨m, hm, hm0⟩ := List.mem_map.mp h0
      exact hne m (by simp [hm]) (List.length_eq_zero_iff.mp hm0)
    rw [SearchSpace.product, List.nodup_flatMap] at h
    obtain ⟨h1, h2⟩ := h
    obtain ⟨a, ha⟩ := List.exists_mem_of_ne_nil l (hne l (by simp))
    intro m hm
    rcases List.mem_cons.mp hm with rfl | hm
    · refine h2.imp ?_
      rintro x y hxy rfl
      obtain ⟨ws, hws⟩ := List.exists_mem_of_ne_nil _ hpne
      exact hxy (List.mem_map_of_mem hws) (List.mem_map_of_mem hws)
    · exact ih (fun m hm => hne m (by simp [hm])) (List.Nodup.of_map _ (h1 a ha)) m hm

/-- The grid points of the unit interval are distinct, by at least the step. -/
theorem linspace01_getElem {size : ℕ} {e : Bool} {i : ℕ} (hi : i < (linspace01 size e).length) :
    (linspace01 size e)[i] = if e then (if size = 1 then 0 else (i : ℝ) / ((size : ℝ) - 1))
      else (i : ℝ) / (size : ℝ) := by
  simp [linspace01]

theorem linspace01_lt {size : ℕ} {e : Bool} :
    (linspace01 size e).Pairwise (· < ·) := by
  rw [List.pairwise_iff_getElem]
  intro i j hi hj hij
  rw [linspace01_getElem, linspace01_getElem]
  have hj' : j < size := by simpa [linspace01] using hj
  have hij' : (i : ℝ) < j := by exact_mod_cast hij
  split_ifs with he h1
  · omega
  · have : (0 : ℝ) < (size : ℝ) - 1 := by
      have : (1 : ℝ) < size := by exact_mod_cast (by omega : 1 < size)
      linarith
    exact div_lt_div_of_pos_right hij' this
  · have : (0 : ℝ) < (size : ℝ) := by exact_mod_cast (by omega : 0 < size)
    exact div_lt_div_of_pos_right hij' this

theorem FloatParam.Inv.normalizedToValue_strictMono {p : FloatParam} (h : p.Inv) :
    StrictMono p.normalizedToValue := by
  intro x y hxy
  have hlt := h.low_lt_high
  have : x * (p.high - p.low) + p.low < y * (p.high - p.low) + p.low := by nlinarith
  unfold FloatParam.normalizedToValue
  simp only
  split_ifs
  · exact Real.exp_lt_exp.mpr this
  · exact this

theorem FloatParam.grid_nodup {p : FloatParam} (h : p.Inv) (size : ℕ) (e : Bool) :
    (p.grid size e).Nodup := by
  unfold FloatParam.grid
  refine List.Nodup.map h.normalizedToValue_strictMono.injective ?_
  exact (linspace01_lt (size := size) (e := e)).imp (fun hab => ne_of_lt hab)

/-- Steps of more than one survive rounding. -/
theorem rnd_lt_of {x y : ℝ} (h : x + 1 < y) : rnd x < rnd y := by
  have h1 := rnd_near x
  have h2 := rnd_near y
  rw [abs_le] at h1 h2
  have : (rnd x : ℝ) < (rnd y : ℝ) := by linarith [h1.2, h2.1]
  exact_mod_cast this

theorem IntParam.grid_nodup_linear {p : IntParam} (h : p.Inv) (hlog : p.log = false) (size : ℕ)
    (e : Bool) (hs : (size : ℤ) ≤ p.upper - p.lower + (if e then 1 else 0)) :
    (p.grid size e).Nodup := by
  have hm := IntParam.margin_bounds
  have hflog : p.floatHp.log = false := by rw [h.flog, hlog]
  have hlen : (p.upper : ℝ) - p.lower + 1 / 2 < p.floatHp.high - p.floatHp.low := by
    have hm' : (1 : ℝ) / 4 < margin := by unfold margin; norm_num
    simp only [FloatParam.high, FloatParam.low, hflog, h.fl, h.fu, Bool.false_eq_true, if_false]
    linarith
  have hlt : (p.lower : ℝ) < p.upper := by exact_mod_cast h.lt
  unfold IntParam.grid
  have hpw : ((linspace01 size e).map p.normalizedToValue).Pairwise (· < ·) := by
    rw [List.pairwise_map, List.pairwise_iff_getElem]
    intro i j hi hj hij
    unfold IntParam.normalizedToValue
    apply rnd_lt_of
    unfold FloatParam.normalizedToValue
    simp only [hflog, Bool.false_eq_true, if_false]
    rw [linspace01_getElem, linspace01_getElem]
    have hj' : j < size := by simpa [linspace01] using hj
    have hij' : (i : ℝ) + 1 ≤ j := by exact_mod_cast hij
    have hs2 : 1 < size := by omega
    have hs2' : (1 : ℝ) < size := by exact_mod_cast hs2
    set L := p.floatHp.high - p.floatHp.low with hL
    have hLpos : 0 < L := by linarith
    -- the distance of two points is at least one step, which is more than one
    have key : ∀ n : ℝ, 0 < n → n < L → (i : ℝ) / n * L + 1 < (j : ℝ) / n * L := by
      intro n hn hnL
      have e1 : (i : ℝ) / n * L + L / n ≤ (j : ℝ) / n * L := by
        have : (i : ℝ) / n * L + L / n = ((i : ℝ) + 1) / n * L := by field_simp
        rw [this]
        apply mul_le_mul_of_nonneg_right _ hLpos.le
        exact div_le_div_of_nonneg_right hij' hn.le
      have e2 : 1 < L / n := by rwa [one_lt_div hn]
      linarith
    cases e with
    | true =>
      simp only [if_true] at hs ⊢
      rw [if_neg (by omega), if_neg (by omega)]
      have hsz : (size : ℝ) ≤ p.upper - p.lower + 1 := by exact_mod_cast hs
      have := key ((size : ℝ) - 1) (by linarith) (by linarith)
      linarith
    | false =>
      simp only [Bool.false_eq_true, if_false, add_zero] at hs ⊢
      have hsz : (size : ℝ) ≤ p.upper - p.lower := by exact_mod_cast hs
      have := key (size : ℝ) (by linarith) (by linarith)
      linarith
  exact hpw.imp (fun hab => ne_of_lt hab)

theorem IntParam.grid_dup {p : IntParam} (h : p.Used) (size : ℕ) (e : Bool)
    (hs : p.upper - p.lower + 1 < size) : ¬ (p.grid size e).Nodup := by
  obtain ⟨hlen, hb, _⟩ := C33_int_grid h size e
  intro hn
  have h1 : (p.grid size e).toFinset ⊆ Finset.Icc p.lower p.upper := by
    intro v hv
    rw [List.mem_toFinset] at hv
    exact Finset.mem_Icc.mpr (hb v hv)
  have h2 := Finset.card_le_card h1
  rw [List.toFinset_card_of_nodup hn, hlen, Int.card_Icc] at h2
  have := h.inv.lt
  omega

namespace SearchSpace

/-! ## C35 -/

/-- **C35, completeness**: the grid consists of exactly the configurations that hold, for every
name of the space, one of the grid values of that parameter, as a constant. -/
theorem C35_grid_mem (s : SearchSpace) (size : ℕ) (endpoint : Bool) (c : SearchSpace) :
    c ∈ s.grid size endpoint ↔
      List.Forall₂ (fun p q => q.1 = p.1 ∧ ∃ v ∈ p.2.range size endpoint, q.2 = .const ⟨v, v⟩)
        s c := by
  unfold grid
  rw [List.mem_map]
  simp only [mem_product]
  constructor
  · rintro ⟨vs, hvs, rfl⟩
    rw [List.forall₂_map_left_iff] at hvs
    induction hvs with
    | nil => exact .nil
    | cons hv _ ih =>
      simp only [Dict.keys, List.map_cons, List.zip_cons_cons] at ih ⊢
      exact .cons ⟨rfl, _, hv, rfl⟩ ih
  · intro h
    induction h with
    | nil => exact ⟨[], by simp, by simp [Dict.keys]⟩
    | @cons p q s c hpq _ ih =>
      obtain ⟨vs, hvs, he⟩ := ih
      obtain ⟨h1, v, hv, h2⟩ := hpq
      refine ⟨v :: vs, .cons hv hvs, ?_⟩
      simp only [Dict.keys, List.map_cons, List.zip_cons_cons] at he ⊢
      rw [he]
      congr 1
      rw [← h1, ← h2]

/-- The point a fraction `t` of the way from `a` to `b`, on the linear or logarithmic scale. -/
noncomputable def between (log : Bool) (a b t : ℝ) : ℝ :=
  if log then a * (b / a) ^ t else a + t * (b - a)

/-- The fractions of an even grid of `size` points: from 0 to 1 with the end point, up to
`(size - 1) / size` without. -/
noncomputable def fractions (size : ℕ) (endpoint : Bool) : List ℝ :=
  (List.range size).map fun (i : ℕ) =>
    if i = 0 then 0 else (i : ℝ) / (if endpoint then (size : ℝ) - 1 else (size : ℝ))

/-- The values of a parameter in the grid, declared independently of the code: evenly spaced values
on the scale of the parameter (for integers the nearest integers of such values over the range
widened by 0.499999 on both sides), all choices, the constant. -/
noncomputable def gridValues (size : ℕ) (endpoint : Bool) : Hp → List Val
  | .float p => (fractions size endpoint).map fun t => .num (between p.log p.lower p.upper t)
  | .int p => (fractions size endpoint).map fun t =>
      .num (rnd (between p.log (p.lower - 0.499999) (p.upper + 0.499999) t) : ℝ)
  | .cat p => p.choices
  | .const p => [p.value]

theorem linspace01_eq (size : ℕ) (e : Bool) : linspace01 size e = fractions size e := by
  unfold linspace01 fractions
  apply List.map_congr_left
  intro i hi
  rw [List.mem_range] at hi
  by_cases h0 : i = 0
  · subst h0
    cases e <;> simp
  · rw [if_neg h0]
    cases e with
    | true => rw [if_pos rfl, if_pos rfl, if_neg (by omega)]
    | false => simp

theorem _root_.Verif.Space.FloatParam.Inv.normalizedToValue_eq {p : FloatParam} (h : p.Inv) (t : ℝ) :
    p.normalizedToValue t = between p.log p.lower p.upper t := by
  unfold FloatParam.normalizedToValue between FloatParam.low FloatParam.high
  cases hl : p.log with
  | false => simp only [Bool.false_eq_true, if_false]; ring
  | true =>
    simp only [if_true]
    have hp := h.pos hl
    have hu : 0 < p.upper := lt_trans hp h.lt
    rw [Real.rpow_def_of_pos (div_pos hu hp), Real.log_div hu.ne' hp.ne', Real.exp_add,
      Real.exp_log hp, mul_comm t, mul_comm]

/-- **C35, values**: the grid values of a parameter are the evenly spaced ones, all choices, or the
constant. -/
theorem C35_grid_values (h : Hp) (hok : h.Ok) (size : ℕ) (endpoint : Bool) :
    h.range size endpoint = gridValues size endpoint h := by
  have hu := hok.used
  cases h with
  | float p =>
    have hi : p.Inv := FloatParam.Used.inv hu
    simp only [Hp.range, FloatParam.grid, gridValues, List.map_map, linspace01_eq]
    apply List.map_congr_left
    intro t _
    simp [hi.normalizedToValue_eq]
  | int p =>
    have hi : p.Inv := IntParam.Used.inv hu
    simp only [Hp.range, IntParam.grid, gridValues, List.map_map, linspace01_eq]
    apply List.map_congr_left
    intro t _
    simp only [Function.comp, IntParam.normalizedToValue, hi.finv.normalizedToValue_eq, hi.flog,
      hi.fl, hi.fu, IntParam.margin]
  | cat p => rfl
  | const p => rfl

/-- **C35, legality**: the grid values of a parameter are legal, and so is every configuration of
the grid. -/
theorem C35_grid_legal (h : Hp) (hok : h.Ok) (size : ℕ) (endpoint : Bool) :
    ∀ v ∈ h.range size endpoint, h.Accepts v := by
  have hu := hok.used
  intro v hv
  cases h with
  | float p =>
    simp only [Hp.range, List.mem_map] at hv
    obtain ⟨x, hx, rfl⟩ := hv
    exact ⟨x, rfl, (C33_float_grid hu size endpoint).2.1 x hx⟩
  | int p =>
    simp only [Hp.range, List.mem_map] at hv
    obtain ⟨x, hx, rfl⟩ := hv
    exact ⟨x, rfl, (C33_int_grid hu size endpoint).2.1 x hx⟩
  | cat p => exact hv
  | const p => simpa [Hp.range, Hp.Accepts] using hv

/-- The number of grid values of a parameter. -/
def gridCount (size : ℕ) : Hp → ℕ
  | .float _ => size
  | .int _ => size
  | .cat p => p.choices.length
  | .const _ => 1

/-- **C35, size**: the number of configurations is the product of the numbers of values. -/
theorem C35_grid_length (s : SearchSpace) (size : ℕ) (endpoint : Bool) :
    (s.grid size endpoint).length = (s.map fun p => gridCount size p.2).prod := by
  unfold grid
  rw [List.length_map, length_product, List.map_map]
  congr 1
  apply List.map_congr_left
  rintro ⟨k, a⟩ _
  cases a <;> simp [Hp.range, gridCount, FloatParam.grid, IntParam.grid, linspace01]

theorem grid_nodup_iff_ranges (s : SearchSpace) (size : ℕ) (endpoint : Bool)
    (hne : ∀ p ∈ s, p.2.range size endpoint ≠ []) :
    (s.grid size endpoint).Nodup ↔ ∀ p ∈ s, (p.2.range size endpoint).Nodup := by
  have hinj : ∀ vs ∈ product (s.map fun p => p.2.range size endpoint),
      ∀ ws ∈ product (s.map fun p => p.2.range size endpoint),
      ((List.zip (Dict.keys s) vs).map fun kv => (kv.1, Hp.const ⟨kv.2, kv.2⟩)) =
        ((List.zip (Dict.keys s) ws).map fun kv => (kv.1, Hp.const ⟨kv.2, kv.2⟩)) → vs = ws := by
    intro vs hvs ws hws he
    have hl1 := (mem_product.mp hvs).length_eq
    have hl2 := (mem_product.mp hws).length_eq
    rw [List.length_map] at hl1 hl2
    have hk : (Dict.keys s).length = s.length := by simp [Dict.keys]
    have h1 := congrArg (List.map fun q : String × Hp => q.2.value) he
    simp only [List.map_map] at h1
    have e : ∀ us : List Val, us.length = s.length →
        (List.zip (Dict.keys s) us).map ((fun q : String × Hp => q.2.value) ∘
          fun kv => (kv.1, Hp.const ⟨kv.2, kv.2⟩)) = us.map some := by
      intro us hus
      have : ((fun q : String × Hp => q.2.value) ∘
          fun kv : String × Val => (kv.1, Hp.const ⟨kv.2, kv.2⟩)) = some ∘ Prod.snd := by
        funext kv; rfl
      rw [this, ← List.map_map, List.map_snd_zip]
      omega
    rw [e vs hl1.symm, e ws hl2.symm] at h1
    exact List.map_injective_iff.mpr (Option.some_injective _) h1
  unfold grid
  constructor
  · intro h
    have := nodup_of_product (by
      intro l hl
      obtain ⟨p, hp, rfl⟩ := List.mem_map.mp hl
      exact hne p hp) (List.Nodup.of_map _ h)
    intro p hp
    exact this _ (List.mem_map_of_mem hp)
  · intro h
    refine List.Nodup.map_on (fun x hx y hy hxy => hinj x hx y hy hxy) (nodup_product ?_)
    intro l hl
    obtain ⟨p, hp, rfl⟩ := List.mem_map.mp hl
    exact h p hp

/-- Enough integers for the grid of an integer parameter: at least as many as grid points with the
upper end included, more than grid points otherwise. -/
def Roomy (size : ℕ) (endpoint : Bool) : Hp → Prop
  | .int p => p.log = false ∧ (size : ℤ) ≤ p.upper - p.lower + (if endpoint then 1 else 0)
  | _ => True

theorem range_nodup {h : Hp} (hok : h.Ok) {size : ℕ} {endpoint : Bool} (hr : Roomy size endpoint h) :
    (h.range size endpoint).Nodup := by
  have hu := hok.used
  cases h with
  | float p =>
    exact (FloatParam.grid_nodup (FloatParam.Used.inv hu) size endpoint).map
      (fun x y h => by simpa using h)
  | int p =>
    exact (IntParam.grid_nodup_linear (IntParam.Used.inv hu) hr.1 size endpoint hr.2).map
      (fun x y h => by simpa using h)
  | cat p => exact (CatParam.Used.inv hu : p.Inv).nodup
  | const p => simp [Hp.range]

/-- **C35**: the grid contains no configuration twice, if every integer parameter is linear and
has enough values.  What is missing: with fewer values the duplicates are not removed
(`C35_duplicates_fails`). -/
theorem C35_grid_once_partial (s : SearchSpace) (h : s.InOrder) (size : ℕ) (endpoint : Bool)
    (hr : ∀ p ∈ s, Roomy size endpoint p.2) : (s.grid size endpoint).Nodup := by
  by_cases hne : ∀ p ∈ s, p.2.range size endpoint ≠ []
  · exact (grid_nodup_iff_ranges s size endpoint hne).mpr
      fun p hp => range_nodup (h.ok p hp) (hr p hp)
  · push Not at hne
    obtain ⟨p, hp, hpe⟩ := hne
    have : s.grid size endpoint = [] := by
      unfold grid
      have h0 : (product (s.map fun p => p.2.range size endpoint)).length = 0 := by
        rw [length_product, List.prod_eq_zero_iff, List.mem_map]
        exact ⟨_, List.mem_map_of_mem hp, by simp [hpe]⟩
      rw [List.length_eq_zero_iff.mp h0]
      rfl
    rw [this]
    exact List.nodup_nil

/-- A grid of the demonstration space. -/
example : (demoSpace.grid 3 true).Nodup ∧ (demoSpace.grid 3 true).length = 27 := by
  constructor
  · refine C35_grid_once_partial _ demoSpace_inOrder _ _ ?_
    simp [demoSpace, Roomy, demoEpochs]
  · rw [C35_grid_length]
    simp [demoSpace, gridCount, demoAct]

/-- **C35 fails**: whenever an integer parameter has fewer values than the grid is asked to have
points, some configuration is in the grid more than once. -/
theorem C35_duplicates_fails (s : SearchSpace) (h : s.InOrder) (size : ℕ) (endpoint : Bool)
    (k : String) (p : IntParam) (hp : (k, .int p) ∈ s) (hs : p.upper - p.lower + 1 < size) :
    ¬ (s.grid size endpoint).Nodup := by
  have hpu : p.Used := (h.ok _ hp).used
  have hsz : 1 ≤ size := by have := hpu.inv.lt; omega
  have hne : ∀ p ∈ s, p.2.range size endpoint ≠ [] := by
    rintro ⟨k', a⟩ hp'
    have hu := (h.ok _ hp').used
    simp only at hu
    rw [Ne, ← List.length_eq_zero_iff]
    cases a with
    | float q => simp [Hp.range, FloatParam.grid, linspace01]; omega
    | int q => simp [Hp.range, IntParam.grid, linspace01]; omega
    | cat q =>
      have := (CatParam.Used.inv hu : q.Inv).two
      simp only [Hp.range]; omega
    | const q => simp [Hp.range]
  rw [grid_nodup_iff_ranges s size endpoint hne]
  intro hall
  have := hall _ hp
  exact IntParam.grid_dup hpu size endpoint hs (List.Nodup.of_map _ this)

end SearchSpace

end Verif.Space
