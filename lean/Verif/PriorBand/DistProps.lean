import Verif.PriorBand.Vary
import Verif.PriorBand.VaryProps
import Mathlib.Analysis.SpecialFunctions.Pow.Real
import Mathlib.Analysis.SpecificLimits.Basic

/-!
# The distance of configurations and the sphere around the incumbent (C85)
-/

set_option linter.unusedSimpArgs false

namespace Verif.PriorBand

open Verif.Space SearchSpace

/-! ## Specification -/

/-- How far two values of a numerical parameter are apart, in units of its range; the fidelity
and the other kinds of parameters do not count. -/
noncomputable def numGap (a b : Hp) : ℝ :=
  if a.isFidelity then 0
  else match a, b with
    | .float p, .float q => match p.value, q.value with
      | some x, some y => |p.valueToNormalized x - p.valueToNormalized y|
      | _, _ => 0
    | .int p, .int q => match p.value, q.value with
      | some x, some y => |p.valueToNormalized x - p.valueToNormalized y|
      | _, _ => 0
    | _, _ => 0

/-- Is it a categorical parameter? -/
def isCategorical : Hp → Bool
  | .cat _ => true
  | _ => false

/-- Is it a numerical parameter other than the fidelity? -/
def isNumerical : Hp → Bool
  | .float p => !p.isFidelity
  | .int p => !p.isFidelity
  | _ => false

open Classical in
/-- `1` if the parameter is categorical and has two different values. -/
noncomputable def catGap (a b : Hp) : ℕ :=
  if isCategorical a = true ∧ a.value ≠ b.value then 1 else 0

/-- The distance of two configurations, in the words of the documentation: the Euclidean distance
over the numerical parameters plus the share of categorical parameters (and one more position)
that differ. -/
noncomputable def specDist (s t : SearchSpace) : ℝ :=
  Real.sqrt (List.zipWith (fun a b : String × Hp => numGap a.2 b.2 ^ 2) s t).sum +
    ((List.zipWith (fun a b : String × Hp => catGap a.2 b.2) s t).sum : ℕ) /
      (((s.filter fun p => isCategorical p.2).length : ℝ) + 1)

/-- Both configurations have the same value. -/
def Agree (s t : SearchSpace) : Prop :=
  ∀ k a b, Dict.get? s k = some a → Dict.get? t k = some b → a.isFidelity = false →
    a.value = b.value

/-! ## Lemmas on parameters -/

theorem float_vtn_inj {p : FloatParam} (hi : p.Inv) {x y : ℝ} (hx : p.lower ≤ x)
    (hy : p.lower ≤ y) (h : p.valueToNormalized x = p.valueToNormalized y) : x = y := by
  have hlt := hi.low_lt_high
  have hne : p.high - p.low ≠ 0 := by linarith
  unfold FloatParam.valueToNormalized at h
  rw [div_left_inj' hne] at h
  cases hl : p.log with
  | false => simpa [hl] using h
  | true =>
    have hp := hi.pos hl
    rw [hl] at h
    simp only [if_true, sub_left_inj] at h
    exact Real.log_injOn_pos (Set.mem_Ioi.mpr (by linarith)) (Set.mem_Ioi.mpr (by linarith)) h

theorem float_vtn_mem {p : FloatParam} (hi : p.Inv) {x : ℝ} (hx : p.lower ≤ x)
    (hy : x ≤ p.upper) : 0 ≤ p.valueToNormalized x ∧ p.valueToNormalized x ≤ 1 := by
  have hlt := hi.low_lt_high
  have hpos : 0 < p.high - p.low := by linarith
  unfold FloatParam.valueToNormalized
  rw [div_le_one hpos]
  have : p.low ≤ (if p.log then Real.log x else x) ∧ (if p.log then Real.log x else x) ≤ p.high := by
    unfold FloatParam.low FloatParam.high
    cases hl : p.log with
    | false => simpa using ⟨hx, hy⟩
    | true =>
      have hp := hi.pos hl
      simp only [if_true]
      exact ⟨Real.log_le_log hp hx, Real.log_le_log (by linarith) hy⟩
  exact ⟨div_nonneg (by linarith [this.1]) hpos.le, by linarith [this.2]⟩

theorem float_vtn_congr {p q : FloatParam} (h1 : q.lower = p.lower) (h2 : q.upper = p.upper)
    (h3 : q.log = p.log) (x : ℝ) : q.valueToNormalized x = p.valueToNormalized x := by
  simp only [FloatParam.valueToNormalized, FloatParam.low, FloatParam.high, h1, h2, h3]

theorem int_vtn_congr {p q : IntParam} (hp : p.Inv) (hq : q.Inv) (h1 : q.lower = p.lower)
    (h2 : q.upper = p.upper) (h3 : q.log = p.log) (x : ℤ) :
    q.valueToNormalized x = p.valueToNormalized x := by
  unfold IntParam.valueToNormalized
  apply float_vtn_congr
  · rw [hp.fl, hq.fl, h1]
  · rw [hp.fu, hq.fu, h2]
  · rw [hp.flog, hq.flog, h3]

theorem int_vtn_inj {p : IntParam} (hi : p.Inv) {x y : ℤ} (hx : p.lower ≤ x) (hx' : x ≤ p.upper)
    (hy : p.lower ≤ y) (hy' : y ≤ p.upper) (h : p.valueToNormalized x = p.valueToNormalized y) :
    x = y := by
  have := float_vtn_inj hi.finv (hi.mem_float hx hx').1 (hi.mem_float hy hy').1 h
  exact_mod_cast this

/-- The place of the value of a numerical parameter in its range. -/
noncomputable def numCoord : Hp → ℝ
  | .float p => if p.isFidelity then 0 else (p.value.map p.valueToNormalized).getD 0
  | .int p => if p.isFidelity then 0 else (p.value.map p.valueToNormalized).getD 0
  | _ => 0

/-- A parameter in order with a value. -/
def Full (a : Hp) : Prop := a.Ok ∧ a.value ≠ none

theorem float_value {p : FloatParam} (h : Full (.float p)) : p.Inv ∧ ∃ x, p.value = some x ∧
    p.lower ≤ x ∧ x ≤ p.upper := by
  have hi : p.Inv := FloatParam.Used.inv h.1.used
  obtain ⟨x, hx⟩ : ∃ x, p.value = some x := by
    have := h.2
    simp only [Hp.value, ne_eq, Option.map_eq_none_iff] at this
    exact Option.ne_none_iff_exists'.mp this
  exact ⟨hi, x, hx, hi.value x hx⟩

theorem int_value {p : IntParam} (h : Full (.int p)) : p.Inv ∧ ∃ x, p.value = some x ∧
    p.lower ≤ x ∧ x ≤ p.upper := by
  have hi : p.Inv := IntParam.Used.inv h.1.used
  obtain ⟨x, hx⟩ : ∃ x, p.value = some x := by
    have := h.2
    simp only [Hp.value, ne_eq, Option.map_eq_none_iff] at this
    exact Option.ne_none_iff_exists'.mp this
  obtain ⟨n, hn, h1, h2⟩ := h.1.value (.num x) (by simp [Hp.value, hx])
  simp only [Val.num.injEq, Int.cast_inj] at hn
  subst hn
  exact ⟨hi, x, hx, h1, h2⟩

theorem cat_value {p : CatParam Val} (h : Full (.cat p)) : ∃ v i, p.value = some v ∧
    CatParam.index p.choices v = some i ∧ p.choices[i]? = some v := by
  obtain ⟨v, hv⟩ := Option.ne_none_iff_exists'.mp h.2
  simp only [Hp.value] at hv
  obtain ⟨i, hi, hg⟩ := CatParam.index_some (h.1.value v hv)
  exact ⟨v, i, hv, hi, hg⟩

theorem numGap_eq {a b : Hp} (ha : Full a) (hb : Full b) (h : a.SameDecl b) :
    numGap a b = |numCoord a - numCoord b| := by
  cases a <;> cases b <;> simp only [Hp.SameDecl] at h
  case float.float p q =>
    obtain ⟨_, x, hx, _⟩ := float_value ha
    obtain ⟨_, y, hy, _⟩ := float_value hb
    obtain ⟨h1, h2, h3, h4, _⟩ := h
    have := float_vtn_congr h1 h2 h3 y
    cases hf : p.isFidelity <;> simp [numGap, numCoord, Hp.isFidelity, hf, hx, hy, h4, this]
  case int.int p q =>
    obtain ⟨hi, x, hx, _⟩ := int_value ha
    obtain ⟨hj, y, hy, _⟩ := int_value hb
    obtain ⟨h1, h2, h3, h4, _⟩ := h
    have := int_vtn_congr hi hj h1 h2 h3 y
    cases hf : p.isFidelity <;> simp [numGap, numCoord, Hp.isFidelity, hf, hx, hy, h4, this]
  all_goals simp [numGap, numCoord, Hp.isFidelity]

theorem numCoord_mem {a : Hp} (ha : Full a) : 0 ≤ numCoord a ∧ numCoord a ≤ 1 := by
  cases a with
  | float p =>
    obtain ⟨hi, x, hx, h1, h2⟩ := float_value ha
    cases hf : p.isFidelity with
    | true => simp [numCoord, hf]
    | false => simpa [numCoord, hf, hx] using float_vtn_mem hi h1 h2
  | int p =>
    obtain ⟨hi, x, hx, h1, h2⟩ := int_value ha
    cases hf : p.isFidelity with
    | true => simp [numCoord, hf]
    | false =>
      simpa [numCoord, hf, hx, IntParam.valueToNormalized] using
        float_vtn_mem hi.finv (hi.mem_float h1 h2).1 (hi.mem_float h1 h2).2
  | cat p => simp [numCoord]
  | const p => simp [numCoord]

theorem numCoord_of_not {a : Hp} (h : isNumerical a = false) : numCoord a = 0 := by
  cases a <;> simp_all [isNumerical, numCoord]

theorem isNumerical_congr {a b : Hp} (h : a.SameDecl b) : isNumerical b = isNumerical a := by
  cases a <;> cases b <;> simp_all [Hp.SameDecl, isNumerical]

theorem isCategorical_congr {a b : Hp} (h : a.SameDecl b) : isCategorical b = isCategorical a := by
  cases a <;> cases b <;> simp_all [Hp.SameDecl, isCategorical]

/-- Two parameters with the same coordinate and, if categorical, the same value have the same
value, unless they are the fidelity. -/
theorem agree_iff {a b : Hp} (ha : Full a) (hb : Full b) (h : a.SameDecl b) :
    (numGap a b = 0 ∧ catGap a b = 0) ↔ (a.isFidelity = false → a.value = b.value) := by
  cases a <;> cases b <;> simp only [Hp.SameDecl] at h
  case float.float p q =>
    obtain ⟨hi, x, hx, hx1, hx2⟩ := float_value ha
    obtain ⟨_, y, hy, hy1, hy2⟩ := float_value hb
    obtain ⟨h1, h2, h3, h4, _⟩ := h
    cases hf : p.isFidelity with
    | true => simp [numGap, catGap, isCategorical, Hp.isFidelity, hf]
    | false =>
      have : x = y ↔ p.valueToNormalized x = p.valueToNormalized y :=
        ⟨fun h => by rw [h], fun h => float_vtn_inj hi hx1 (by rw [← h1]; exact hy1) h⟩
      simp [numGap, catGap, isCategorical, Hp.isFidelity, Hp.value, hf, hx, hy, this, sub_eq_zero]
  case int.int p q =>
    obtain ⟨hi, x, hx, hx1, hx2⟩ := int_value ha
    obtain ⟨_, y, hy, hy1, hy2⟩ := int_value hb
    obtain ⟨h1, h2, h3, h4, _⟩ := h
    cases hf : p.isFidelity with
    | true => simp [numGap, catGap, isCategorical, Hp.isFidelity, hf]
    | false =>
      have : x = y ↔ p.valueToNormalized x = p.valueToNormalized y :=
        ⟨fun h => by rw [h], fun h => int_vtn_inj hi hx1 hx2 (by rw [← h1]; exact hy1)
          (by rw [← h2]; exact hy2) h⟩
      simp [numGap, catGap, isCategorical, Hp.isFidelity, Hp.value, hf, hx, hy, this, sub_eq_zero]
  case cat.cat p q => simp [numGap, catGap, isCategorical, Hp.isFidelity]
  case const.const p q => simp [numGap, catGap, isCategorical, Hp.isFidelity, Hp.value, h.1]

theorem catGap_comm {a b : Hp} (h : a.SameDecl b) : catGap a b = catGap b a := by
  unfold catGap
  rw [isCategorical_congr h]
  congr 1
  rw [ne_comm]

theorem catGap_triangle {a b c : Hp} (h1 : a.SameDecl b) :
    catGap a c ≤ catGap a b + catGap b c := by
  unfold catGap
  rw [isCategorical_congr h1]
  by_cases hc : isCategorical a = true
  · by_cases e1 : a.value = b.value
    · simp [e1]
    · simp only [hc, true_and, ne_eq, e1, not_false_eq_true, if_true]
      split_ifs <;> omega
  · simp [hc]

/-! ## Lemmas on lists -/

/-- The relation between two complete configurations of one space, position by position. -/
def Comparable (p q : String × Hp) : Prop :=
  q.1 = p.1 ∧ p.2.SameDecl q.2 ∧ Full p.2 ∧ Full q.2

theorem comparable_of {s t : SearchSpace} (hs : s.InOrder) (ht : t.InOrder)
    (hst : s.Pointwise (fun _ _ _ => True) t) (hsv : s.Valued) (htv : t.Valued) :
    List.Forall₂ Comparable s t :=
  forall₂_imp_mem hst fun p hp q hq h =>
    ⟨h.1, h.2.1, ⟨hs.ok p hp, hsv p hp⟩, ⟨ht.ok q hq, htv q hq⟩⟩

theorem isFid_float (q : FloatParam) : (Hp.float q).isFidelity = q.isFidelity := rfl
theorem isFid_int (q : IntParam) : (Hp.int q).isFidelity = q.isFidelity := rfl
theorem isFid_cat (q : CatParam Val) : (Hp.cat q).isFidelity = false := rfl
theorem isFid_const (q : ConstParam Val) : (Hp.const q).isFidelity = false := rfl
theorem isNum_float (q : FloatParam) : isNumerical (.float q) = !q.isFidelity := rfl
theorem isNum_int (q : IntParam) : isNumerical (.int q) = !q.isFidelity := rfl
theorem isNum_cat (q : CatParam Val) : isNumerical (.cat q) = false := rfl
theorem isNum_const (q : ConstParam Val) : isNumerical (.const q) = false := rfl
theorem isCat_float (q : FloatParam) : isCategorical (.float q) = false := rfl
theorem isCat_int (q : IntParam) : isCategorical (.int q) = false := rfl
theorem isCat_cat (q : CatParam Val) : isCategorical (.cat q) = true := rfl
theorem isCat_const (q : ConstParam Val) : isCategorical (.const q) = false := rfl
theorem numCoord_float (q : FloatParam) : numCoord (.float q) =
    if q.isFidelity then 0 else (q.value.map q.valueToNormalized).getD 0 := rfl
theorem numCoord_int (q : IntParam) : numCoord (.int q) =
    if q.isFidelity then 0 else (q.value.map q.valueToNormalized).getD 0 := rfl

theorem continuous_eq {s : SearchSpace} (h : ∀ p ∈ s, Full p.2) :
    continuous s = some ((s.filter fun p => isNumerical p.2).map fun p => numCoord p.2) := by
  unfold continuous
  simp only [Option.bind_eq_bind, Option.pure_def]
  induction s with
  | nil => rfl
  | cons p s ih =>
    have ih := ih fun q hq => h q (List.mem_cons_of_mem _ hq)
    have hp := h p List.mem_cons_self
    obtain ⟨n, a⟩ := p
    cases a with
    | float q =>
      obtain ⟨_, x, hx, _⟩ := float_value hp
      cases hf : q.isFidelity <;>
        simp [List.filter_cons, isFid_float, isFid_int, isNum_float, isNum_int, numCoord_float,
          numCoord_int, hf, hx, ih]
    | int q =>
      obtain ⟨_, x, hx, _⟩ := int_value hp
      cases hf : q.isFidelity <;>
        simp [List.filter_cons, isFid_float, isFid_int, isNum_float, isNum_int, numCoord_float,
          numCoord_int, hf, hx, ih]
    | cat q => simp [List.filter_cons, isFid_cat, isFid_const, isNum_cat, isNum_const, ih]
    | const q => simp [List.filter_cons, isFid_cat, isFid_const, isNum_cat, isNum_const, ih]

/-- The number of the choice. -/
noncomputable def catCoord : Hp → ℕ
  | .cat p => (p.value.bind (CatParam.index p.choices)).getD 0
  | _ => 0

theorem catCoord_cat (q : CatParam Val) :
    catCoord (.cat q) = (q.value.bind (CatParam.index q.choices)).getD 0 := rfl

theorem categorical_eq {s : SearchSpace} (h : ∀ p ∈ s, Full p.2) :
    categorical s = some ((s.filter fun p => isCategorical p.2).map fun p => catCoord p.2) := by
  unfold categorical
  simp only [Option.bind_eq_bind, Option.pure_def]
  induction s with
  | nil => rfl
  | cons p s ih =>
    have ih := ih fun q hq => h q (List.mem_cons_of_mem _ hq)
    have hp := h p List.mem_cons_self
    obtain ⟨n, a⟩ := p
    cases a with
    | float q =>
      cases hf : q.isFidelity <;>
        simp [List.filter_cons, isFid_float, isFid_int, isCat_float, isCat_int, hf, ih]
    | int q =>
      cases hf : q.isFidelity <;>
        simp [List.filter_cons, isFid_float, isFid_int, isCat_float, isCat_int, hf, ih]
    | cat q =>
      obtain ⟨v, i, hv, hi, _⟩ := cat_value hp
      simp [List.filter_cons, isFid_cat, isCat_cat, catCoord_cat, hv, hi, ih]
    | const q => simp [List.filter_cons, isFid_const, isCat_const, ih]

theorem catGap_eq {a b : Hp} (ha : Full a) (hb : Full b) (h : a.SameDecl b) :
    isCategorical a = true → catGap a b = if catCoord a = catCoord b then 0 else 1 := by
  intro hc
  cases a <;> cases b <;> simp only [Hp.SameDecl] at h <;> simp [isCategorical] at hc
  case cat.cat p q =>
    obtain ⟨v, i, hv, hi, hgi⟩ := cat_value ha
    obtain ⟨w, j, hw, hj, hgj⟩ := cat_value hb
    have : v = w ↔ i = j := by
      constructor
      · rintro rfl
        rw [h.1, hi] at hj
        simpa using hj
      · rintro rfl
        rw [h.1, hgi] at hgj
        simpa using hgj
    simp only [catGap, isCategorical, Hp.value, hv, hw, catCoord, hi, hj, Option.bind_some,
      Option.getD_some, true_and, ne_eq, Option.some.injEq, this]
    split_ifs <;> rfl

theorem lists_eq {s t : SearchSpace} (h : List.Forall₂ Comparable s t) :
    ((s.filter fun p => isNumerical p.2).length = (t.filter fun p => isNumerical p.2).length ∧
    (s.filter fun p => isCategorical p.2).length = (t.filter fun p => isCategorical p.2).length) ∧
    (List.zipWith (fun x y => (x - y) ^ 2)
      ((s.filter fun p => isNumerical p.2).map fun p => numCoord p.2)
      ((t.filter fun p => isNumerical p.2).map fun p => numCoord p.2)).sum =
      (List.zipWith (fun a b : String × Hp => numGap a.2 b.2 ^ 2) s t).sum ∧
    (List.zipWith (fun i j => if i = j then 0 else 1)
      ((s.filter fun p => isCategorical p.2).map fun p => catCoord p.2)
      ((t.filter fun p => isCategorical p.2).map fun p => catCoord p.2)).sum =
      (List.zipWith (fun a b : String × Hp => catGap a.2 b.2) s t).sum := by
  induction h with
  | nil => simp
  | @cons p q s t hpq _ ih =>
    obtain ⟨_, hd, hf, hg⟩ := hpq
    obtain ⟨⟨h1, h2⟩, h3, h4⟩ := ih
    simp only [List.zipWith_map] at h3 h4
    have en := isNumerical_congr hd
    have ec := isCategorical_congr hd
    have e1 : numGap p.2 q.2 ^ 2 = (numCoord p.2 - numCoord q.2) ^ 2 := by
      rw [numGap_eq hf hg hd, sq_abs]
    have e2 := catGap_eq hf hg hd
    refine ⟨⟨?_, ?_⟩, ?_, ?_⟩
    · cases hn : isNumerical p.2 <;> simp [List.filter_cons, en, hn, h1]
    · cases hn : isCategorical p.2 <;> simp [List.filter_cons, ec, hn, h2]
    · cases hn : isNumerical p.2 with
      | true => simp [List.filter_cons, en, hn, e1, h3]
      | false =>
        rw [hn] at en
        simp [List.filter_cons, en, hn, e1, h3, numCoord_of_not hn, numCoord_of_not en]
    · cases hn : isCategorical p.2 with
      | true => simp [List.filter_cons, ec, hn, e2 hn, h4]
      | false => simp [List.filter_cons, ec, hn, h4, catGap]

/-- The code computes the documented distance. -/
theorem configDist_eq {s t : SearchSpace} (h : List.Forall₂ Comparable s t) :
    configDist s t = some (specDist s t) := by
  have hs : ∀ p ∈ s, Full p.2 := fun p hp => by
    obtain ⟨q, _, hq⟩ := forall₂_mem_left h p hp
    exact hq.2.2.1
  have ht : ∀ p ∈ t, Full p.2 := fun p hp => by
    obtain ⟨q, _, hq⟩ := forall₂_mem_right h p hp
    exact hq.2.2.2
  obtain ⟨⟨h1, h2⟩, h3, h4⟩ := lists_eq h
  unfold configDist
  rw [continuous_eq hs, continuous_eq ht, categorical_eq hs, categorical_eq ht]
  simp only [Option.bind_eq_bind, Option.bind_some, List.length_map]
  rw [if_pos ⟨h1, h2⟩]
  simp only [euclid, hamming, specDist, h3, h4, List.length_map]

theorem minkowski {α β γ : Type*} {f : α → β → ℝ} {g : β → γ → ℝ} {k : α → γ → ℝ}
    {xs : List α} {ys : List β} {zs : List γ}
    (h1 : xs.length = ys.length) (h2 : ys.length = zs.length)
    (h : ∀ (i : ℕ) x y z, xs[i]? = some x → ys[i]? = some y → zs[i]? = some z →
      0 ≤ f x y ∧ 0 ≤ g y z ∧ 0 ≤ k x z ∧ k x z ≤ f x y + g y z) :
    0 ≤ (List.zipWith (fun a b => f a b ^ 2) xs ys).sum ∧
    0 ≤ (List.zipWith (fun a b => g a b ^ 2) ys zs).sum ∧
    Real.sqrt (List.zipWith (fun a b => k a b ^ 2) xs zs).sum ≤
      Real.sqrt (List.zipWith (fun a b => f a b ^ 2) xs ys).sum +
        Real.sqrt (List.zipWith (fun a b => g a b ^ 2) ys zs).sum := by
  induction xs generalizing ys zs with
  | nil => cases ys <;> cases zs <;> simp_all
  | cons x xs ih =>
    cases ys with
    | nil => simp at h1
    | cons y ys =>
      cases zs with
      | nil => simp at h2
      | cons z zs =>
        obtain ⟨i1, i2, i3⟩ := ih (by simpa using h1) (by simpa using h2)
          fun i x y z a b c => h (i + 1) x y z (by simpa using a) (by simpa using b) (by simpa using c)
        obtain ⟨a1, a2, a3, a4⟩ := h 0 x y z rfl rfl rfl
        simp only [List.zipWith_cons_cons, List.sum_cons]
        set F := (List.zipWith (fun a b => f a b ^ 2) xs ys).sum
        set G := (List.zipWith (fun a b => g a b ^ 2) ys zs).sum
        set K := (List.zipWith (fun a b => k a b ^ 2) xs zs).sum
        refine ⟨by positivity, by positivity, ?_⟩
        have sF := Real.sq_sqrt i1
        have sG := Real.sq_sqrt i2
        have nF := Real.sqrt_nonneg F
        have nG := Real.sqrt_nonneg G
        have hK : K ≤ (Real.sqrt F + Real.sqrt G) ^ 2 := by
          rcases le_or_gt K 0 with hk | hk
          · exact hk.trans (sq_nonneg _)
          · rw [← Real.sq_sqrt hk.le]
            exact pow_le_pow_left₀ (Real.sqrt_nonneg _) i3 2
        have key : f x y * g y z + Real.sqrt F * Real.sqrt G ≤
            Real.sqrt (f x y ^ 2 + F) * Real.sqrt (g y z ^ 2 + G) := by
          rw [← Real.sqrt_mul (show 0 ≤ f x y ^ 2 + F by positivity)]
          apply Real.le_sqrt_of_sq_le
          nlinarith [sq_nonneg (f x y * Real.sqrt G - g y z * Real.sqrt F)]
        rw [Real.sqrt_le_left (by positivity)]
        have s1 := Real.sq_sqrt (show 0 ≤ f x y ^ 2 + F by positivity)
        have s2 := Real.sq_sqrt (show 0 ≤ g y z ^ 2 + G by positivity)
        have : k x z ^ 2 ≤ (f x y + g y z) ^ 2 := pow_le_pow_left₀ a3 a4 2
        nlinarith

theorem zipWith_symm {α β γ : Type*} {R : α → β → Prop} {f : α → β → γ} {g : β → α → γ}
    {xs : List α} {ys : List β} (h : List.Forall₂ R xs ys) (hfg : ∀ x y, R x y → f x y = g y x) :
    List.zipWith f xs ys = List.zipWith g ys xs := by
  induction h with
  | nil => rfl
  | cons h _ ih => simp [hfg _ _ h, ih]

theorem Comparable.symm {p q : String × Hp} (h : Comparable p q) : Comparable q p :=
  ⟨h.1.symm, h.2.1.symm, h.2.2.2, h.2.2.1⟩

theorem comparable_symm {s t : SearchSpace} (h : List.Forall₂ Comparable s t) :
    List.Forall₂ Comparable t s := by
  induction h with
  | nil => exact .nil
  | cons h _ ih => exact .cons h.symm ih

theorem cats_eq {s t : SearchSpace} (h : List.Forall₂ Comparable s t) :
    (t.filter fun p => isCategorical p.2).length = (s.filter fun p => isCategorical p.2).length :=
  ((lists_eq h).1.2).symm

theorem numSum_nonneg (s t : SearchSpace) :
    0 ≤ (List.zipWith (fun a b : String × Hp => numGap a.2 b.2 ^ 2) s t).sum := by
  induction s generalizing t with
  | nil => simp
  | cons a s ih =>
    cases t with
    | nil => simp
    | cons b t =>
      rw [List.zipWith_cons_cons, List.sum_cons]
      have := ih t
      positivity

theorem specDist_nonneg (s t : SearchSpace) : 0 ≤ specDist s t := by
  unfold specDist
  positivity

theorem specDist_symm {s t : SearchSpace} (h : List.Forall₂ Comparable s t) :
    specDist t s = specDist s t := by
  unfold specDist
  rw [cats_eq h, zipWith_symm h (g := fun a b : String × Hp => numGap a.2 b.2 ^ 2),
    zipWith_symm h (g := fun a b : String × Hp => catGap a.2 b.2)]
  · exact fun x y hxy => catGap_comm hxy.2.1
  · intro x y hxy
    rw [numGap_eq hxy.2.2.1 hxy.2.2.2 hxy.2.1, numGap_eq hxy.2.2.2 hxy.2.2.1 hxy.2.1.symm, abs_sub_comm]

theorem specDist_triangle {s t u : SearchSpace} (h1 : List.Forall₂ Comparable s t)
    (h2 : List.Forall₂ Comparable t u) : specDist s u ≤ specDist s t + specDist t u := by
  have hg1 : ∀ (i : ℕ) x y, s[i]? = some x → t[i]? = some y → Comparable x y := by
    intro i x y hx hy
    have hl := h1.length_eq
    obtain ⟨hi, rfl⟩ := List.getElem?_eq_some_iff.mp hx
    obtain ⟨hi', rfl⟩ := List.getElem?_eq_some_iff.mp hy
    have := (List.forall₂_iff_get.mp h1).2 i hi hi'
    simpa using this
  have hg2 : ∀ (i : ℕ) x y, t[i]? = some x → u[i]? = some y → Comparable x y := by
    intro i x y hx hy
    obtain ⟨hi, rfl⟩ := List.getElem?_eq_some_iff.mp hx
    obtain ⟨hi', rfl⟩ := List.getElem?_eq_some_iff.mp hy
    have := (List.forall₂_iff_get.mp h2).2 i hi hi'
    simpa using this
  have hm := (minkowski (f := fun a b : String × Hp => numGap a.2 b.2)
    (g := fun a b : String × Hp => numGap a.2 b.2) (k := fun a b : String × Hp => numGap a.2 b.2)
    h1.length_eq h2.length_eq (by
      intro i x y z hx hy hz
      have c1 := hg1 i x y hx hy
      have c2 := hg2 i y z hy hz
      rw [numGap_eq c1.2.2.1 c1.2.2.2 c1.2.1, numGap_eq c2.2.2.1 c2.2.2.2 c2.2.1,
        numGap_eq c1.2.2.1 c2.2.2.2 (c1.2.1.trans c2.2.1)]
      exact ⟨abs_nonneg _, abs_nonneg _, abs_nonneg _, abs_sub_le _ _ _⟩)).2.2
  have hc : (List.zipWith (fun a b : String × Hp => catGap a.2 b.2) s u).sum ≤
      (List.zipWith (fun a b : String × Hp => catGap a.2 b.2) s t).sum +
        (List.zipWith (fun a b : String × Hp => catGap a.2 b.2) t u).sum := by
    clear hm hg1 hg2
    induction h1 generalizing u with
    | nil => simp
    | @cons p q s t hpq _ ih =>
      cases h2 with
      | cons hqr h2 =>
        have := ih h2
        simp only [List.zipWith_cons_cons, List.sum_cons]
        rename_i r u
        have := catGap_triangle (c := r.2) hpq.2.1
        omega
  unfold specDist
  rw [cats_eq h1]
  have hpos : (0 : ℝ) < ((s.filter fun p => isCategorical p.2).length : ℝ) + 1 := by positivity
  have hc' := div_le_div_of_nonneg_right
    (show (((List.zipWith (fun a b : String × Hp => catGap a.2 b.2) s u).sum : ℕ) : ℝ) ≤
      ((List.zipWith (fun a b : String × Hp => catGap a.2 b.2) s t).sum : ℕ) +
        ((List.zipWith (fun a b : String × Hp => catGap a.2 b.2) t u).sum : ℕ) by
      exact_mod_cast hc) hpos.le
  rw [add_div] at hc'
  linarith

theorem sums_zero {s t : SearchSpace} (h : List.Forall₂ Comparable s t) :
    ((List.zipWith (fun a b : String × Hp => numGap a.2 b.2 ^ 2) s t).sum = 0 ∧
      (List.zipWith (fun a b : String × Hp => catGap a.2 b.2) s t).sum = 0) ↔
    List.Forall₂ (fun p q => p.1 = q.1 ∧ (p.2.isFidelity = false → p.2.value = q.2.value)) s t := by
  induction h with
  | nil => simp
  | @cons p q s t hpq _ ih =>
    have hn := numSum_nonneg s t
    have ha := agree_iff hpq.2.2.1 hpq.2.2.2 hpq.2.1
    simp only [List.zipWith_cons_cons, List.sum_cons, List.forall₂_cons, ← ih, ← ha, hpq.1,
      true_and]
    constructor
    · rintro ⟨h1, h2⟩
      have := sq_nonneg (numGap p.2 q.2)
      refine ⟨⟨?_, by omega⟩, by linarith, by omega⟩
      exact pow_eq_zero_iff (two_ne_zero) |>.mp (by linarith)
    · rintro ⟨⟨h1, h2⟩, h3, h4⟩
      rw [h1, h2, h3, h4]
      simp

theorem agree_iff_forall₂ {s t : SearchSpace} (hs : s.InOrder) (ht : t.InOrder)
    (h : List.Forall₂ Comparable s t) : Agree s t ↔
      List.Forall₂ (fun p q => p.1 = q.1 ∧ (p.2.isFidelity = false → p.2.value = q.2.value)) s t := by
  constructor
  · intro ha
    refine forall₂_imp_mem h fun p hp q hq hpq => ⟨hpq.1.symm, ?_⟩
    have e1 : Dict.get? s p.1 = some p.2 := Dict.get?_of_mem hs.nodup hp
    have e2 : Dict.get? t p.1 = some q.2 := by
      rw [← hpq.1]; exact Dict.get?_of_mem ht.nodup hq
    exact ha _ _ _ e1 e2
  · intro ha k a b h1 h2
    obtain ⟨b', hb', _, h3⟩ := forall₂_get? ha (fun p q h => h.1.symm) h1
    rw [h2] at hb'
    simp only [Option.some.injEq] at hb'
    subst hb'
    exact h3

theorem bound_sums {s t : SearchSpace} (h : List.Forall₂ Comparable s t) :
    (List.zipWith (fun a b : String × Hp => numGap a.2 b.2 ^ 2) s t).sum ≤
      ((s.filter fun p => isNumerical p.2).length : ℝ) ∧
    (List.zipWith (fun a b : String × Hp => catGap a.2 b.2) s t).sum ≤
      (s.filter fun p => isCategorical p.2).length := by
  induction h with
  | nil => simp
  | @cons p q s t hpq _ ih =>
    simp only [List.zipWith_cons_cons, List.sum_cons]
    have hg := numGap_eq hpq.2.2.1 hpq.2.2.2 hpq.2.1
    have m1 := numCoord_mem hpq.2.2.1
    have m2 := numCoord_mem hpq.2.2.2
    constructor
    · cases hn : isNumerical p.2 with
      | true =>
        have : numGap p.2 q.2 ^ 2 ≤ 1 := by
          rw [hg, sq_abs]
          nlinarith
        simp only [List.filter_cons, hn, if_true, List.length_cons]
        push_cast
        linarith [ih.1]
      | false =>
        have e2 : isNumerical q.2 = false := by rw [isNumerical_congr hpq.2.1, hn]
        rw [hg, numCoord_of_not hn, numCoord_of_not e2]
        simpa [List.filter_cons, hn] using ih.1
    · cases hn : isCategorical p.2 with
      | true =>
        have : catGap p.2 q.2 ≤ 1 := by unfold catGap; split_ifs <;> omega
        simp only [List.filter_cons, hn, if_true, List.length_cons]
        omega
      | false =>
        have : catGap p.2 q.2 = 0 := by simp [catGap, hn]
        simp only [List.filter_cons, hn, this]
        simpa using ih.2

/-! ## The distance -/

/-- **C85**: two complete configurations of one space have the documented distance. -/
theorem C85_distance (s t : SearchSpace) (hs : s.InOrder) (ht : t.InOrder)
    (hst : s.Pointwise (fun _ _ _ => True) t) (hsv : s.Valued) (htv : t.Valued) :
    configDist s t = some (specDist s t) :=
  configDist_eq (comparable_of hs ht hst hsv htv)

/-- **C85**: the distance is zero exactly if the configurations agree on every parameter except
the fidelity; it does not depend on the order; it satisfies the triangle inequality. -/
theorem C85_metric (s t u : SearchSpace) (hs : s.InOrder) (ht : t.InOrder) (hu : u.InOrder)
    (hst : s.Pointwise (fun _ _ _ => True) t) (htu : t.Pointwise (fun _ _ _ => True) u)
    (hsv : s.Valued) (htv : t.Valued) (huv : u.Valued) :
    ∃ st ts tu su : ℝ, configDist s t = some st ∧ configDist t s = some ts ∧
      configDist t u = some tu ∧ configDist s u = some su ∧
      0 ≤ st ∧ (st = 0 ↔ Agree s t) ∧ ts = st ∧ su ≤ st + tu := by
  have c1 := comparable_of hs ht hst hsv htv
  have c2 := comparable_of ht hu htu htv huv
  have c3 : List.Forall₂ Comparable s u :=
    List.Forall₂.imp (fun _ _ ⟨_, h1, h2⟩ =>
      ⟨h2.1.trans h1.1, h1.2.1.trans h2.2.1, h1.2.2.1, h2.2.2.2⟩) (forall₂_trans c1 c2)
  refine ⟨_, _, _, _, configDist_eq c1, configDist_eq (comparable_symm c1), configDist_eq c2,
    configDist_eq c3, specDist_nonneg _ _, ?_, specDist_symm c1, specDist_triangle c1 c2⟩
  rw [agree_iff_forall₂ hs ht c1, ← sums_zero c1]
  have hn := numSum_nonneg s t
  have hpos : (0 : ℝ) < ((s.filter fun p => isCategorical p.2).length : ℝ) + 1 := by positivity
  unfold specDist
  constructor
  · intro h
    have a1 := Real.sqrt_nonneg (List.zipWith (fun a b : String × Hp => numGap a.2 b.2 ^ 2) s t).sum
    have a2 : 0 ≤ (((List.zipWith (fun a b : String × Hp => catGap a.2 b.2) s t).sum : ℕ) : ℝ) /
      (((s.filter fun p => isCategorical p.2).length : ℝ) + 1) := by positivity
    have b1 : Real.sqrt (List.zipWith (fun a b : String × Hp => numGap a.2 b.2 ^ 2) s t).sum = 0 := by
      linarith
    have b2 : (((List.zipWith (fun a b : String × Hp => catGap a.2 b.2) s t).sum : ℕ) : ℝ) /
      (((s.filter fun p => isCategorical p.2).length : ℝ) + 1) = 0 := by linarith
    rw [div_eq_zero_iff] at b2
    refine ⟨(Real.sqrt_eq_zero hn).mp b1, ?_⟩
    exact_mod_cast b2.resolve_right hpos.ne'
  · rintro ⟨h1, h2⟩
    rw [h1, h2]
    simp

/-- **C85**: the distance of two configurations is bounded by the numbers of parameters alone. -/
theorem C85_bounded (s t : SearchSpace) (hs : s.InOrder) (ht : t.InOrder)
    (hst : s.Pointwise (fun _ _ _ => True) t) (hsv : s.Valued) (htv : t.Valued) (d : ℝ)
    (hd : configDist s t = some d) :
    d < Real.sqrt ((s.filter fun p => isNumerical p.2).length : ℝ) + 1 := by
  have c := comparable_of hs ht hst hsv htv
  rw [configDist_eq c] at hd
  simp only [Option.some.injEq] at hd
  subst hd
  obtain ⟨h1, h2⟩ := bound_sums c
  unfold specDist
  have hpos : (0 : ℝ) < ((s.filter fun p => isCategorical p.2).length : ℝ) + 1 := by positivity
  have e1 := Real.sqrt_le_sqrt h1
  have e2 : (((List.zipWith (fun a b : String × Hp => catGap a.2 b.2) s t).sum : ℕ) : ℝ) /
      (((s.filter fun p => isCategorical p.2).length : ℝ) + 1) < 1 := by
    rw [div_lt_one hpos]
    have : (((List.zipWith (fun a b : String × Hp => catGap a.2 b.2) s t).sum : ℕ) : ℝ) ≤
      ((s.filter fun p => isCategorical p.2).length : ℝ) := by exact_mod_cast h2
    linarith
  linarith

/-! ## The nearest neighbour -/

theorem foldl_min_spec (l : List ℝ) (d : ℝ) :
    (l.foldl min d = d ∨ l.foldl min d ∈ l) ∧ l.foldl min d ≤ d ∧ ∀ x ∈ l, l.foldl min d ≤ x := by
  induction l generalizing d with
  | nil => simp
  | cons a l ih =>
    obtain ⟨h1, h2, h3⟩ := ih (min d a)
    simp only [List.foldl_cons, List.mem_cons]
    refine ⟨?_, h2.trans (min_le_left _ _), ?_⟩
    · rcases h1 with h1 | h1
      · rcases min_choice d a with h | h
        · left; rw [h1, h]
        · right; left; rw [h1, h]
      · exact Or.inr (Or.inr h1)
    · rintro x (rfl | hx)
      · exact h2.trans (min_le_right _ _)
      · exact h3 x hx

/-- **C85**: the radius of the sphere around the incumbent is the distance of the nearest observed
configuration that differs from it; if none of the observed ones differs, the search for it
raises. -/
theorem C85_nearest (inc : SearchSpace) (observed : List SearchSpace) (hi : inc.InOrder)
    (hiv : inc.Valued) (ho : ∀ c ∈ observed, c.InOrder ∧ c.Valued ∧
      inc.Pointwise (fun _ _ _ => True) c) :
    (∀ r, nearest inc observed = some r → 0 < r ∧
      (∃ c ∈ observed, ¬ Agree inc c ∧ configDist inc c = some r) ∧
      ∀ c ∈ observed, ¬ Agree inc c → ∃ d, configDist inc c = some d ∧ r ≤ d) ∧
    (nearest inc observed = none ↔ ∀ c ∈ observed, Agree inc c) := by
  have hd : ∀ c ∈ observed, configDist inc c = some (specDist inc c) := fun c hc =>
    C85_distance _ _ hi (ho c hc).1 (ho c hc).2.2 hiv (ho c hc).2.1
  have hz : ∀ c ∈ observed, (0 < specDist inc c ↔ ¬ Agree inc c) := by
    intro c hc
    obtain ⟨st, _, _, _, h1, _, _, _, h0, h2, _⟩ := C85_metric inc c c hi (ho c hc).1 (ho c hc).1
      (ho c hc).2.2 (by
        unfold SearchSpace.Pointwise
        rw [List.forall₂_same]
        exact fun p _ => ⟨rfl, Hp.SameDecl.refl _, trivial⟩) hiv (ho c hc).2.1 (ho c hc).2.1
    rw [hd c hc] at h1
    simp only [Option.some.injEq] at h1
    rw [h1, ← h2]
    exact ⟨fun h => h.ne', fun h => lt_of_le_of_ne h0 (Ne.symm h)⟩
  have hm : (observed.mapM fun c => configDist inc c) = some (observed.map (specDist inc)) := by
    clear hz ho
    induction observed with
    | nil => rfl
    | cons c l ih =>
      rw [List.mapM_cons, hd c List.mem_cons_self, ih fun x hx => hd x (List.mem_cons_of_mem _ hx)]
      rfl
  unfold nearest
  rw [hm]
  simp only [Option.bind_eq_bind, Option.bind_some]
  cases hf : (observed.map (specDist inc)).filter (fun d => decide (0 < d)) with
  | nil =>
    simp only [reduceCtorEq, false_implies, implies_true, true_and, true_iff]
    intro c hc
    rw [List.filter_eq_nil_iff] at hf
    have := hf _ (List.mem_map.mpr ⟨c, hc, rfl⟩)
    rw [decide_eq_true_eq, hz c hc, not_not] at this
    exact this
  | cons d rest =>
    obtain ⟨h1, h2, h3⟩ := foldl_min_spec rest d
    have hmem : ∀ x, x ∈ d :: rest ↔ ∃ c ∈ observed, specDist inc c = x ∧ ¬ Agree inc c := by
      intro x
      rw [← hf, List.mem_filter, List.mem_map, decide_eq_true_eq]
      constructor
      · rintro ⟨⟨c, hc, rfl⟩, hp⟩
        exact ⟨c, hc, rfl, (hz c hc).mp hp⟩
      · rintro ⟨c, hc, rfl, hn⟩
        exact ⟨⟨c, hc, rfl⟩, (hz c hc).mpr hn⟩
    have hr : rest.foldl min d ∈ d :: rest := by
      rcases h1 with h1 | h1
      · rw [h1]; exact List.mem_cons_self
      · exact List.mem_cons_of_mem _ h1
    constructor
    · intro r hr'
      simp only [Option.some.injEq] at hr'
      subst hr'
      obtain ⟨c, hc, he, hn⟩ := (hmem _).mp hr
      refine ⟨?_, ⟨c, hc, hn, by rw [hd c hc, he]⟩, ?_⟩
      · rw [← he]; exact (hz c hc).mpr hn
      · intro c' hc' hn'
        refine ⟨_, hd c' hc', ?_⟩
        have : specDist inc c' ∈ d :: rest := (hmem _).mpr ⟨c', hc', rfl, hn'⟩
        rcases List.mem_cons.mp this with h | h
        · rw [h]; exact h2
        · exact h3 _ h
    · simp only [reduceCtorEq, false_iff]
      intro hall
      obtain ⟨c, hc, _, hn⟩ := (hmem _).mp hr
      exact hn (hall c hc)

/-- **C85**, where the code does not do what one expects: with a single observed configuration,
the incumbent itself, there is no radius and sampling inside the sphere raises. -/
theorem C85_nearest_fails (inc : SearchSpace) (hi : inc.InOrder) (hiv : inc.Valued) :
    nearest inc [inc] = none := by
  refine (C85_nearest inc [inc] hi hiv ?_).2.mpr ?_
  · simp only [List.mem_singleton, forall_eq]
    refine ⟨hi, hiv, ?_⟩
    unfold SearchSpace.Pointwise
    rw [List.forall₂_same]
    exact fun p _ => ⟨rfl, Hp.SameDecl.refl _, trivial⟩
  · simp only [List.mem_singleton, forall_eq]
    intro k a b ha hb _
    rw [ha] at hb
    simp only [Option.some.injEq] at hb
    rw [hb]

/-! ## Sampling inside the sphere -/

theorem neighbourGo_spec (tol : ℝ) (ds : List ℝ) (r0 r : ℝ) (c i : ℕ) (hc : c = i % 1001)
    (hr : r = r0 * (101 / 100) ^ (i / 1001)) :
    (∀ j, neighbourGo tol ds r c i = some j → i ≤ j ∧ ∃ d, ds[j - i]? = some d ∧
      d < max (r0 * (101 / 100) ^ (j / 1001)) tol ∧
      ∀ (k : ℕ) e, k < j - i → ds[k]? = some e → max (r0 * (101 / 100) ^ ((i + k) / 1001)) tol ≤ e) ∧
    (neighbourGo tol ds r c i = none →
      ∀ (k : ℕ) e, ds[k]? = some e → max (r0 * (101 / 100) ^ ((i + k) / 1001)) tol ≤ e) := by
  induction ds generalizing r c i with
  | nil => simp [neighbourGo]
  | cons d ds ih =>
    rw [neighbourGo]
    by_cases hd : d < max r tol
    · rw [if_pos hd]
      simp only [Option.some.injEq, reduceCtorEq, false_implies, and_true]
      rintro j rfl
      exact ⟨le_rfl, d, by simp, by rw [← hr]; exact hd, by simp⟩
    · rw [if_neg hd]
      have hstep : ∃ r' c', (if c + 1 > 1000 then neighbourGo tol ds (r + r * (1 / 100)) 0 (i + 1)
          else neighbourGo tol ds r (c + 1) (i + 1)) = neighbourGo tol ds r' c' (i + 1) ∧
          c' = (i + 1) % 1001 ∧ r' = r0 * (101 / 100) ^ ((i + 1) / 1001) := by
        by_cases hcc : c + 1 > 1000
        · refine ⟨r + r * (1 / 100), 0, if_pos hcc, by omega, ?_⟩
          have : (i + 1) / 1001 = i / 1001 + 1 := by omega
          rw [this, hr, pow_succ]
          ring
        · refine ⟨r, c + 1, if_neg hcc, by omega, ?_⟩
          have : (i + 1) / 1001 = i / 1001 := by omega
          rw [this, hr]
      obtain ⟨r', c', he, hc', hr'⟩ := hstep
      rw [he]
      obtain ⟨h1, h2⟩ := ih r' c' (i + 1) hc' hr'
      rw [not_lt, hr] at hd
      constructor
      · intro j hj
        obtain ⟨hle, e, he1, he2, he3⟩ := h1 j hj
        refine ⟨by omega, e, ?_, he2, ?_⟩
        · rw [show j - i = (j - (i + 1)) + 1 by omega]
          simpa using he1
        · intro k e' hk hek
          cases k with
          | zero => simp only [List.getElem?_cons_zero, Option.some.injEq] at hek; subst hek; exact hd
          | succ k =>
            have := he3 k e' (by omega) (by simpa using hek)
            rwa [show i + (k + 1) = i + 1 + k by omega]
      · intro hn k e' hek
        cases k with
        | zero => simp only [List.getElem?_cons_zero, Option.some.injEq] at hek; subst hek; exact hd
        | succ k =>
          have := h2 hn k e' (by simpa using hek)
          rwa [show i + (k + 1) = i + 1 + k by omega]

/-- **C85**: the configuration taken is the first one inside the sphere, whose radius grows by one
per cent after every 1001 rejected ones and is never smaller than the tolerance. -/
theorem C85_sphere (tolerance radius : ℝ) (ds : List ℝ) (j : ℕ)
    (h : neighbourGo tolerance ds radius 0 0 = some j) :
    ∃ d, ds[j]? = some d ∧ d < max (radius * (101 / 100) ^ (j / 1001)) tolerance ∧
      ∀ (k : ℕ) e, k < j → ds[k]? = some e → max (radius * (101 / 100) ^ (k / 1001)) tolerance ≤ e := by
  obtain ⟨_, d, h1, h2, h3⟩ := (neighbourGo_spec tolerance ds radius radius 0 0 (by simp)
    (by simp)).1 j h
  exact ⟨d, by simpa using h1, h2, fun k e hk he => by simpa using h3 k e (by simpa using hk) he⟩

/-- **C85**: with a positive radius the sampling ends: there is a number of samples, depending on
the radius and the largest possible distance alone, within which one is taken. -/
theorem C85_sphere_ends (tolerance radius bound : ℝ) (hr : 0 < radius) :
    ∃ N, ∀ ds : List ℝ, N ≤ ds.length → (∀ d ∈ ds, d ≤ bound) →
      ∃ j < N, neighbourGo tolerance ds radius 0 0 = some j := by
  obtain ⟨n, hn⟩ := pow_unbounded_of_one_lt (bound / radius) (show (1 : ℝ) < 101 / 100 by norm_num)
  rw [div_lt_iff₀ hr] at hn
  refine ⟨1001 * n + 1, fun ds hlen hb => ?_⟩
  have hget : ∃ e, ds[1001 * n]? = some e := ⟨_, List.getElem?_eq_getElem (by omega)⟩
  obtain ⟨e, he⟩ := hget
  have hlt : e < max (radius * (101 / 100) ^ (1001 * n / 1001)) tolerance := by
    rw [Nat.mul_div_cancel_left _ (by norm_num)]
    refine lt_of_lt_of_le ?_ (le_max_left _ _)
    have := hb e (List.mem_of_getElem? he)
    linarith
  have hs := neighbourGo_spec tolerance ds radius radius 0 0 (by simp) (by simp)
  cases hg : neighbourGo tolerance ds radius 0 0 with
  | none =>
    have := hs.2 hg (1001 * n) e he
    rw [Nat.zero_add] at this
    exact absurd hlt (not_lt.mpr this)
  | some j =>
    refine ⟨j, ?_, rfl⟩
    by_contra hc
    obtain ⟨_, d, h1, h2, h3⟩ := hs.1 j hg
    have := h3 (1001 * n) e (by omega) he
    rw [Nat.zero_add] at this
    exact absurd hlt (not_lt.mpr this)

/-- **C85**, why the radius must be positive: with radius zero no number of samples suffices, as
long as they are not within the tolerance. -/
theorem C85_sphere_zero_fails (tolerance : ℝ) (ht : 0 ≤ tolerance) (ds : List ℝ)
    (hd : ∀ d ∈ ds, tolerance ≤ d) : neighbourGo tolerance ds 0 0 0 = none := by
  cases hg : neighbourGo tolerance ds 0 0 0 with
  | none => rfl
  | some j =>
    exfalso
    obtain ⟨d, h1, h2, _⟩ := C85_sphere _ _ _ _ hg
    rw [zero_mul, max_eq_right ht] at h2
    exact absurd h2 (not_lt.mpr (hd d (List.mem_of_getElem? h1)))

/-! ## Examples -/

theorem pointwise_refl (s : SearchSpace) : s.Pointwise (fun _ _ _ => True) s := by
  unfold SearchSpace.Pointwise
  rw [List.forall₂_same]
  exact fun p _ => ⟨rfl, Hp.SameDecl.refl _, trivial⟩

/-- The learning rate of the demonstration space with a value. -/
noncomputable def lrAt (x : ℝ) : FloatParam := (demoLr.setValue (some x)).st

/-- The activation of the demonstration space with another value. -/
noncomputable def geluAct : CatParam Val := (demoAct.setValue (some (.str "gelu"))).st

theorem lrAt_eq {x : ℝ} (h1 : 1 ≤ x) (h2 : x ≤ 10) : lrAt x =
    { demoLr with value := some x, normalized := some (demoLr.valueToNormalized x) } := by
  have : demoLr.lower ≤ x ∧ x ≤ demoLr.upper := ⟨h1, h2⟩
  simp [lrAt, FloatParam.setValue, this]

theorem lrAt_ok {x : ℝ} (h1 : 1 ≤ x) (h2 : x ≤ 10) : (Hp.float (lrAt x)).Ok := by
  refine ⟨.setValue _ demoLr_used, ?_, ?_⟩
  · rw [lrAt_eq h1 h2]
    simp only [Hp.value, Option.map_some, Option.some.injEq, Hp.Accepts]
    rintro v rfl
    exact ⟨x, rfl, h1, h2⟩
  · rw [lrAt_eq h1 h2]
    simp only [Hp.dflt, demoLr, Option.map_some, Option.some.injEq, Hp.Accepts]
    rintro v rfl
    exact ⟨2, rfl, by norm_num, by norm_num⟩

theorem geluAct_eq :
    geluAct = { demoAct with value := some (.str "gelu"), valueIndex := some 2 } := by
  simp [geluAct, CatParam.setValue, demoAct, CatParam.index, List.findIdx?_cons]

theorem geluAct_ok : (Hp.cat geluAct).Ok := by
  refine ⟨.setValue _ demoAct_used, ?_, ?_⟩
  · rw [geluAct_eq]
    simp [Hp.value, Hp.Accepts, demoAct]
  · rw [geluAct_eq]
    simp [Hp.dflt, Hp.Accepts, demoAct]

/-- Two configurations at opposite ends. -/
noncomputable def nearEnd : SearchSpace := [("act", .cat demoAct), ("lr", .float (lrAt 1))]

/-- Two configurations at opposite ends. -/
noncomputable def farEnd : SearchSpace := [("act", .cat geluAct), ("lr", .float (lrAt 10))]

theorem pair_inOrder {a b : Hp} (ha : a.Ok) (hb : b.Ok) (hfa : a.isFidelity = false)
    (hfb : b.isFidelity = false) :
    SearchSpace.InOrder [("act", a), ("lr", b)] := by
  refine ⟨[("act", a), ("lr", b)], by simp [Dict.keys], ?_, ?_⟩
  · simp only [List.mem_cons, List.not_mem_nil, or_false]
    rintro p (rfl | rfl)
    · exact ha
    · exact hb
  · have hs : Dict.sorted [("act", a), ("lr", b)] = [("act", a), ("lr", b)] := by
      unfold Dict.sorted
      apply List.mergeSort_of_pairwise
      simp only [List.pairwise_cons, List.mem_cons, List.not_mem_nil, or_false, forall_eq,
        IsEmpty.forall_iff, implies_true, List.Pairwise.nil, and_true]
      exact (by decide : decide ("act" ≤ "lr") = true)
    simp [SearchSpace.make, hs, hfa, hfb]

/-- The hypotheses of `C85_distance`, `C85_metric`, `C85_bounded` and `C85_nearest` are met by two
configurations that differ in everything; their distance is one and a half. -/
example : nearEnd.InOrder ∧ farEnd.InOrder ∧ nearEnd.Pointwise (fun _ _ _ => True) farEnd ∧
    nearEnd.Valued ∧ farEnd.Valued ∧ configDist nearEnd farEnd = some (3 / 2) := by
  have h1 : nearEnd.InOrder := pair_inOrder demoAct_ok (lrAt_ok le_rfl (by norm_num)) rfl
    (by rw [lrAt_eq le_rfl (by norm_num)]; rfl)
  have h2 : farEnd.InOrder := pair_inOrder geluAct_ok (lrAt_ok (by norm_num) le_rfl) rfl
    (by rw [lrAt_eq (by norm_num) le_rfl]; rfl)
  have h3 : nearEnd.Pointwise (fun _ _ _ => True) farEnd := by
    unfold SearchSpace.Pointwise nearEnd farEnd
    rw [lrAt_eq le_rfl (by norm_num), lrAt_eq (by norm_num) le_rfl, geluAct_eq]
    simp [Hp.SameDecl]
  have h4 : nearEnd.Valued := by
    unfold nearEnd
    rw [lrAt_eq le_rfl (by norm_num)]
    simp [SearchSpace.Valued, Hp.value, demoAct]
  have h5 : farEnd.Valued := by
    unfold farEnd
    rw [lrAt_eq (by norm_num) le_rfl, geluAct_eq]
    simp [SearchSpace.Valued, Hp.value, demoAct]
  refine ⟨h1, h2, h3, h4, h5, ?_⟩
  rw [C85_distance _ _ h1 h2 h3 h4 h5]
  have hl : Real.log 10 ≠ 0 := (Real.log_pos (by norm_num)).ne'
  have g1 : numGap (.float (lrAt 1)) (.float (lrAt 10)) = 1 := by
    rw [lrAt_eq le_rfl (by norm_num), lrAt_eq (by norm_num) le_rfl]
    simp [numGap, Hp.isFidelity, demoLr, FloatParam.valueToNormalized, FloatParam.low,
      FloatParam.high, hl]
  have g2 : catGap (.cat demoAct) (.cat geluAct) = 1 := by
    rw [geluAct_eq]
    simp [catGap, isCategorical, Hp.value, demoAct]
  have g3 : numGap (.cat demoAct) (.cat geluAct) = 0 := by simp [numGap, Hp.isFidelity]
  have g4 : catGap (.float (lrAt 1)) (.float (lrAt 10)) = 0 := by simp [catGap, isCategorical]
  simp only [specDist, nearEnd, farEnd, List.zipWith_cons_cons, List.zipWith_nil_left, g1, g2, g3,
    g4, List.sum_cons, List.sum_nil, List.filter_cons, isCat_cat, isCat_float]
  norm_num

/-- The hypothesis of `C85_sphere` is met: the third sample is the first one inside the sphere. -/
example : neighbourGo (1 / 100) [1, 1 / 2, 1 / 20, 1 / 30] (1 / 10) 0 0 = some 2 := by
  norm_num [neighbourGo]

end Verif.PriorBand
