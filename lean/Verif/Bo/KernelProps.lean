import Verif.Bo.Kernel
import Verif.Space.EncodeLemmas

/-!
# Property C146: the surrogate compares configurations parameter by parameter
-/

namespace Verif.Bo

open Verif.Space Verif.Space.Dict

/-! ## The columns -/

theorem split_numerics (cols pre suf : Dict Bool) (h : cols = pre ++ suf)
    (hn : cols.keys.Nodup) (k : KernelCols) :
    suf.foldl (splitStep cols) k =
      ⟨k.numerics ++ ((suf.zipIdx pre.length).filter (fun p => !p.1.2)).map (·.2),
        k.categoricals ++ ((suf.zipIdx pre.length).filter (fun p => p.1.2)).map (·.2)⟩ := by
  induction suf generalizing pre k with
  | nil => simp
  | cons p suf ih =>
    have hi : colIndex cols p.1 = pre.length := by
      subst h
      have hnot : ∀ q ∈ pre.keys, ¬ q = p.1 := by
        intro q hq he
        simp only [Dict.keys, List.map_append, List.map_cons] at hn hq
        have := (List.nodup_append.1 hn).2.2 q hq p.1 (by simp)
        exact this he
      unfold colIndex
      simp only [Dict.keys, List.map_append, List.map_cons] at hnot ⊢
      rw [List.findIdx_append, List.findIdx_eq_length_of_false (by simpa using hnot)]
      simp [List.findIdx_cons]
    have := ih (pre ++ [p]) (by rw [h]; simp)
    simp only [List.foldl_cons, splitStep, hi]
    rw [this]
    cases hp : p.2 <;> simp [hp, List.zipIdx_cons]

theorem splitColumns_eq (cols : Dict Bool) (hn : cols.keys.Nodup) :
    splitColumns cols =
      ⟨(cols.zipIdx.filter (fun p => !p.1.2)).map (·.2),
        (cols.zipIdx.filter (fun p => p.1.2)).map (·.2)⟩ := by
  have := split_numerics cols [] cols rfl hn ⟨[], []⟩
  simpa [splitColumns] using this

theorem mem_numerics {cols : Dict Bool} (hn : cols.keys.Nodup) (i : ℕ) :
    i ∈ (splitColumns cols).numerics ↔ ∃ name, cols[i]? = some (name, false) := by
  rw [splitColumns_eq cols hn]
  simp only [List.mem_map, List.mem_filter, Prod.exists]
  constructor
  · rintro ⟨name, b, j, ⟨hm, hb⟩, rfl⟩
    have := List.mem_zipIdx_iff_getElem?.1 hm
    simp only [Bool.not_eq_true'] at hb
    exact ⟨name, by rw [this, ← hb]⟩
  · rintro ⟨name, h⟩
    exact ⟨name, false, i, ⟨List.mem_zipIdx_iff_getElem?.2 h, rfl⟩, rfl⟩

theorem mem_categoricals {cols : Dict Bool} (hn : cols.keys.Nodup) (i : ℕ) :
    i ∈ (splitColumns cols).categoricals ↔ ∃ name, cols[i]? = some (name, true) := by
  rw [splitColumns_eq cols hn]
  simp only [List.mem_map, List.mem_filter, Prod.exists]
  constructor
  · rintro ⟨name, b, j, ⟨hm, hb⟩, rfl⟩
    have := List.mem_zipIdx_iff_getElem?.1 hm
    exact ⟨name, by rw [this, hb]⟩
  · rintro ⟨name, h⟩
    exact ⟨name, true, i, ⟨List.mem_zipIdx_iff_getElem?.2 h, rfl⟩, rfl⟩

/-- The columns of the numerical and of the categorical part of a kernel. -/
def GPKernel.columns (n : ℕ) : GPKernel → KernelCols
  | .default => ⟨List.range n, []⟩
  | .categorical _ active => ⟨[], active.getD (List.range n)⟩
  | .mixed _ dims (_, active) => ⟨dims, active.getD (List.range n)⟩

/-- A column of `params` is categorical (`true`) or numerical (`false`). -/
def IsCol (params : Dict Bool) (i : ℕ) (cat : Bool) : Prop :=
  ∃ name, params.sorted[i]? = some (name, cat)

theorem isCol_lt {params : Dict Bool} {i : ℕ} {c : Bool} (h : IsCol params i c) :
    i < params.length := by
  obtain ⟨name, h⟩ := h
  have := (List.getElem?_eq_some_iff.1 h).1
  rwa [(sorted_perm params).length_eq] at this

theorem isCol_of_lt {params : Dict Bool} {i : ℕ} (h : i < params.length) :
    ∃ c, IsCol params i c := by
  have : i < params.sorted.length := by rwa [(sorted_perm params).length_eq]
  exact ⟨(params.sorted[i]).2, (params.sorted[i]).1, List.getElem?_eq_getElem this⟩

theorem isCol_unique {params : Dict Bool} {i : ℕ} {c c' : Bool} (h : IsCol params i c)
    (h' : IsCol params i c') : c = c' := by
  obtain ⟨n, h⟩ := h
  obtain ⟨n', h'⟩ := h'
  rw [h] at h'
  simp only [Option.some.injEq, Prod.mk.injEq] at h'
  exact h'.2

theorem kernel_cols (params : Dict Bool) (hn : params.keys.Nodup) (i : ℕ) :
    (i ∈ ((chooseKernel params.sorted).columns params.length).numerics ↔ IsCol params i false) ∧
    (i ∈ ((chooseKernel params.sorted).columns params.length).categoricals ↔
      IsCol params i true) := by
  have hs : params.sorted.keys.Nodup := sorted_keys_nodup hn
  have hN := mem_numerics hs i
  have hC := mem_categoricals hs i
  unfold chooseKernel
  simp only [defaultCategorical]
  split
  · rename_i h0
    have hnil := List.length_eq_zero_iff.1 h0
    have hno : ∀ j, ¬ IsCol params j true := by
      intro j hj
      have := (mem_categoricals hs j).2 hj
      simp [hnil] at this
    refine ⟨?_, ?_⟩
    · simp only [GPKernel.columns, List.mem_range]
      refine ⟨fun h => ?_, isCol_lt⟩
      obtain ⟨c, hc⟩ := isCol_of_lt h
      cases c
      · exact hc
      · exact absurd hc (hno i)
    · simp only [GPKernel.columns, List.not_mem_nil, false_iff]
      exact hno i
  · split
    · rename_i h1
      have hnil := List.length_eq_zero_iff.1 h1
      have hno : ∀ j, ¬ IsCol params j false := by
        intro j hj
        have := (mem_numerics hs j).2 hj
        simp [hnil] at this
      refine ⟨?_, ?_⟩
      · simp only [GPKernel.columns, List.not_mem_nil, false_iff]
        exact hno i
      · simp only [GPKernel.columns, Option.getD_none, List.mem_range]
        refine ⟨fun h => ?_, isCol_lt⟩
        obtain ⟨c, hc⟩ := isCol_of_lt h
        cases c
        · exact absurd hc (hno i)
        · exact hc
    · exact ⟨hN, hC⟩

theorem nodup_zipIdx_filter {α : Type} (l : List α) (q : α × ℕ → Bool) :
    ((l.zipIdx.filter q).map (·.2)).Nodup := by
  have h1 : (l.zipIdx.map (·.2)).Nodup := by
    rw [List.zipIdx_map_snd]
    exact List.nodup_range'
  exact h1.sublist (List.filter_sublist.map _)

/-- C146. Every parameter is compared by exactly one part of the kernel: once, as a category if it
is categorical and as a number otherwise. -/
theorem C146_columns (params : Dict Bool) (hn : params.keys.Nodup) :
    let k := (chooseKernel params.sorted).columns params.length
    (k.numerics ++ k.categoricals).Perm (List.range params.length) ∧
      (∀ i, i ∈ k.numerics ↔ IsCol params i false) ∧
      (∀ i, i ∈ k.categoricals ↔ IsCol params i true) := by
  intro k
  have hN : ∀ i, i ∈ k.numerics ↔ IsCol params i false := fun i => (kernel_cols params hn i).1
  have hC : ∀ i, i ∈ k.categoricals ↔ IsCol params i true := fun i => (kernel_cols params hn i).2
  refine ⟨?_, hN, hC⟩
  have hs := splitColumns_eq params.sorted (sorted_keys_nodup hn)
  have hnd : k.numerics.Nodup ∧ k.categoricals.Nodup := by
    simp only [k, chooseKernel, defaultCategorical]
    split
    · exact ⟨List.nodup_range, List.nodup_nil⟩
    · split
      · exact ⟨List.nodup_nil, List.nodup_range⟩
      · simp only [GPKernel.columns, Option.getD_some, hs]
        exact ⟨nodup_zipIdx_filter _ _, nodup_zipIdx_filter _ _⟩
  apply (List.perm_ext_iff_of_nodup _ List.nodup_range).2
  · intro i
    rw [List.mem_append, hN, hC, List.mem_range]
    refine ⟨fun h => h.elim isCol_lt isCol_lt, fun h => ?_⟩
    obtain ⟨c, hc⟩ := isCol_of_lt h
    cases c
    · exact .inl hc
    · exact .inr hc
  · rw [List.nodup_append]
    refine ⟨hnd.1, hnd.2, ?_⟩
    rintro a ha b hb rfl
    have := isCol_unique ((hN a).1 ha) ((hC a).1 hb)
    simp at this

/-! ## The covariance -/

/-- The hyperparameters meet the constraints of the kernels. -/
structure Hyper.Valid (h : Hyper) : Prop where
  num : ∀ k, 0 < h.numScale k
  cat : ∀ k, 0 < h.catScale k
  out : 0 < h.outScale

/-- `z` is at least as far from `x` as `y` in every parameter: as a number, or by being another
choice. -/
def Farther (params : Dict Bool) (x y z : ℕ → ℝ) : Prop :=
  (∀ i, IsCol params i false → |x i - y i| ≤ |x i - z i|) ∧
    ∀ i, IsCol params i true → x i ≠ y i → x i ≠ z i

theorem rbf_le {dims : List ℕ} {s : ℕ → ℝ} {x y z : ℕ → ℝ}
    (h : ∀ i ∈ dims, |x i - y i| ≤ |x i - z i|) : rbf dims s x z ≤ rbf dims s x y := by
  apply Real.exp_le_exp.2
  have : (dims.zipIdx.map fun d => ((x d.1 - y d.1) / s d.2) ^ 2).sum ≤
      (dims.zipIdx.map fun d => ((x d.1 - z d.1) / s d.2) ^ 2).sum := by
    apply List.sum_le_sum
    intro d hd
    have hm : d.1 ∈ dims := List.fst_mem_of_mem_zipIdx hd
    rw [div_pow, div_pow]
    exact div_le_div_of_nonneg_right (sq_le_sq.2 (h _ hm)) (sq_nonneg _)
  linarith

theorem rbf_lt {dims : List ℕ} {s : ℕ → ℝ} (hs : ∀ k, 0 < s k) {x y z : ℕ → ℝ}
    (h : ∀ i ∈ dims, |x i - y i| ≤ |x i - z i|) {i : ℕ} (hi : i ∈ dims)
    (hlt : |x i - y i| < |x i - z i|) : rbf dims s x z < rbf dims s x y := by
  apply Real.exp_lt_exp.2
  have : (dims.zipIdx.map fun d => ((x d.1 - y d.1) / s d.2) ^ 2).sum <
      (dims.zipIdx.map fun d => ((x d.1 - z d.1) / s d.2) ^ 2).sum := by
    apply List.sum_lt_sum
    · intro d hd
      have hm : d.1 ∈ dims := List.fst_mem_of_mem_zipIdx hd
      rw [div_pow, div_pow]
      exact div_le_div_of_nonneg_right (sq_le_sq.2 (h _ hm)) (sq_nonneg _)
    · obtain ⟨k, hk, rfl⟩ := List.mem_iff_getElem.1 hi
      refine ⟨(dims[k], k), ?_, ?_⟩
      · rw [List.mem_zipIdx_iff_getElem?]
        simp [hk]
      · rw [div_pow, div_pow]
        exact div_lt_div_of_pos_right (sq_lt_sq.2 hlt) (by have := hs k; positivity)
  linarith

theorem catKernel_le {dims : List ℕ} {s : ℕ → ℝ} (hs : ∀ k, 0 < s k) {out : ℝ} (ho : 0 < out)
    {x y z : ℕ → ℝ} (h : ∀ i ∈ dims, x i ≠ y i → x i ≠ z i) :
    catKernel dims s out x z ≤ catKernel dims s out x y := by
  classical
  apply mul_le_mul_of_nonneg_left _ ho.le
  apply Real.exp_le_exp.2
  apply neg_le_neg
  apply div_le_div_of_nonneg_right _ (Nat.cast_nonneg _)
  apply List.sum_le_sum
  intro d hd
  have hm : d.1 ∈ dims := List.fst_mem_of_mem_zipIdx hd
  apply div_le_div_of_nonneg_right _ (hs _).le
  by_cases hy : x d.1 = y d.1
  · rw [if_pos hy]
    split <;> norm_num
  · rw [if_neg hy, if_neg (h _ hm hy)]

theorem catKernel_lt {dims : List ℕ} {s : ℕ → ℝ} (hs : ∀ k, 0 < s k) {out : ℝ} (ho : 0 < out)
    {x y z : ℕ → ℝ} (h : ∀ i ∈ dims, x i ≠ y i → x i ≠ z i) {i : ℕ} (hi : i ∈ dims)
    (hy : x i = y i) (hz : x i ≠ z i) :
    catKernel dims s out x z < catKernel dims s out x y := by
  classical
  have hpos : (0 : ℝ) < dims.length := by
    have := List.length_pos_of_mem hi
    exact_mod_cast this
  apply mul_lt_mul_of_pos_left _ ho
  apply Real.exp_lt_exp.2
  apply neg_lt_neg
  apply div_lt_div_of_pos_right _ hpos
  apply List.sum_lt_sum
  · intro d hd
    have hm : d.1 ∈ dims := List.fst_mem_of_mem_zipIdx hd
    apply div_le_div_of_nonneg_right _ (hs _).le
    by_cases hy : x d.1 = y d.1
    · rw [if_pos hy]
      split <;> norm_num
    · rw [if_neg hy, if_neg (h _ hm hy)]
  · obtain ⟨k, hk, rfl⟩ := List.mem_iff_getElem.1 hi
    refine ⟨(dims[k], k), ?_, ?_⟩
    · rw [List.mem_zipIdx_iff_getElem?]
      simp [hk]
    · simp only
      rw [if_pos hy, if_neg hz]
      exact div_lt_div_of_pos_right (by norm_num) (hs k)

theorem surrogate_eq (params : Dict Bool) (h : Hyper) (x y : ℕ → ℝ) :
    surrogateCov params h x y =
      covariance params.length h x y (chooseKernel params.sorted) := by
  simp [surrogateCov, (sorted_perm params).length_eq]

/-- C146. A configuration that is closer in every parameter is at least as similar, and more
similar if it is closer in some parameter: numbers by their distance, categories by being the
same. -/
theorem C146_closer_more_similar (params : Dict Bool) (hn : params.keys.Nodup) (h : Hyper)
    (hv : h.Valid) (x y z : ℕ → ℝ) (hf : Farther params x y z) :
    surrogateCov params h x z ≤ surrogateCov params h x y ∧
      ((∃ i, IsCol params i false ∧ |x i - y i| < |x i - z i|) ∨
        (∃ i, IsCol params i true ∧ x i = y i ∧ x i ≠ z i) →
        surrogateCov params h x z < surrogateCov params h x y) := by
  rw [surrogate_eq, surrogate_eq]
  have hN := fun i => (kernel_cols params hn i).1
  have hC := fun i => (kernel_cols params hn i).2
  have hfN : ∀ i ∈ ((chooseKernel params.sorted).columns params.length).numerics,
      |x i - y i| ≤ |x i - z i| := fun i hi => hf.1 i ((hN i).1 hi)
  have hfC : ∀ i ∈ ((chooseKernel params.sorted).columns params.length).categoricals,
      x i ≠ y i → x i ≠ z i := fun i hi => hf.2 i ((hC i).1 hi)
  cases hk : chooseKernel params.sorted with
  | default =>
    rw [hk] at hN hC hfN hfC
    simp only [GPKernel.columns] at hN hC hfN hfC
    refine ⟨rbf_le hfN, ?_⟩
    rintro (⟨i, hi, hlt⟩ | ⟨i, hi, _⟩)
    · exact rbf_lt hv.num hfN ((hN i).2 hi) hlt
    · exact absurd ((hC i).2 hi) (by simp)
  | categorical a active =>
    rw [hk] at hN hC hfN hfC
    simp only [GPKernel.columns] at hN hC hfN hfC
    refine ⟨catKernel_le hv.cat hv.out hfC, ?_⟩
    rintro (⟨i, hi, _⟩ | ⟨i, hi, hy, hz⟩)
    · exact absurd ((hN i).2 hi) (by simp)
    · exact catKernel_lt hv.cat hv.out hfC ((hC i).2 hi) hy hz
  | mixed a dims c =>
    rw [hk] at hN hC hfN hfC
    simp only [GPKernel.columns] at hN hC hfN hfC
    have h1 := rbf_le (s := h.numScale) hfN
    have h2 := catKernel_le hv.cat hv.out hfC
    refine ⟨add_le_add h1 h2, ?_⟩
    rintro (⟨i, hi, hlt⟩ | ⟨i, hi, hy, hz⟩)
    · exact add_lt_add_of_lt_of_le (rbf_lt hv.num hfN ((hN i).2 hi) hlt) h2
    · exact add_lt_add_of_le_of_lt h1 (catKernel_lt hv.cat hv.out hfC ((hC i).2 hi) hy hz)

/-- C146. Nothing is more similar to a configuration than itself, and only a configuration with
the same value of every parameter is as similar. -/
theorem C146_itself (params : Dict Bool) (hn : params.keys.Nodup) (h : Hyper) (hv : h.Valid)
    (x y : ℕ → ℝ) :
    surrogateCov params h x y ≤ surrogateCov params h x x ∧
      (surrogateCov params h x y = surrogateCov params h x x ↔
        ∀ i < params.length, x i = y i) := by
  have hf : Farther params x x y := ⟨fun i _ => by simp, fun i _ hne => absurd rfl hne⟩
  have hm := C146_closer_more_similar params hn h hv x x y hf
  refine ⟨hm.1, fun heq i hi => ?_, fun hall => ?_⟩
  · by_contra hne
    apply (lt_irrefl (surrogateCov params h x x))
    conv_lhs => rw [← heq]
    apply hm.2
    obtain ⟨c, hc⟩ := isCol_of_lt hi
    cases c
    · refine .inl ⟨i, hc, ?_⟩
      simpa using sub_ne_zero.2 hne
    · exact .inr ⟨i, hc, rfl, hne⟩
  · have hf' : Farther params x y x := by
      refine ⟨fun i hi => ?_, fun i hi hne => absurd (hall i (isCol_lt hi)) hne⟩
      rw [hall i (isCol_lt hi)]
    exact le_antisymm hm.1 (C146_closer_more_similar params hn h hv x y x hf').1

/-- C146. Similarity is symmetric. -/
theorem C146_symmetric (params : Dict Bool) (h : Hyper) (x y : ℕ → ℝ) :
    surrogateCov params h x y = surrogateCov params h y x := by
  have hr : ∀ dims s, rbf dims s x y = rbf dims s y x := by
    intro dims s
    unfold rbf
    congr 3
    apply List.map_congr_left
    intro d _
    rw [← neg_sub, neg_div, neg_sq]
  have hc : ∀ dims s o, catKernel dims s o x y = catKernel dims s o y x := by
    intro dims s o
    unfold catKernel
    simp only [eq_comm]
  rw [surrogate_eq, surrogate_eq]
  cases chooseKernel params.sorted with
  | default => exact hr _ _
  | categorical _ _ => exact hc _ _ _
  | mixed _ _ c => simp only [covariance]; rw [hr, hc]

/-- C146. The choices of a categorical parameter have no order: numbering them differently does not
change any similarity. -/
theorem C146_choices_unordered (params : Dict Bool) (hn : params.keys.Nodup) (h : Hyper)
    (f : ℕ → ℝ → ℝ) (hcat : ∀ i, IsCol params i true → Function.Injective (f i))
    (hnum : ∀ i, IsCol params i false → f i = id) (x y : ℕ → ℝ) :
    surrogateCov params h (fun i => f i (x i)) (fun i => f i (y i)) =
      surrogateCov params h x y := by
  classical
  have hN := fun i => (kernel_cols params hn i).1
  have hC := fun i => (kernel_cols params hn i).2
  have hr : ∀ dims s, (∀ i ∈ dims, IsCol params i false) →
      rbf dims s (fun i => f i (x i)) (fun i => f i (y i)) = rbf dims s x y := by
    intro dims s hd
    unfold rbf
    congr 3
    apply List.map_congr_left
    intro d hm
    simp [hnum _ (hd _ (List.fst_mem_of_mem_zipIdx hm))]
  have hc : ∀ dims s o, (∀ i ∈ dims, IsCol params i true) →
      catKernel dims s o (fun i => f i (x i)) (fun i => f i (y i)) = catKernel dims s o x y := by
    intro dims s o hd
    unfold catKernel
    congr 5
    apply List.map_congr_left
    intro d hm
    simp only [(hcat _ (hd _ (List.fst_mem_of_mem_zipIdx hm))).eq_iff]
  rw [surrogate_eq, surrogate_eq]
  cases hk : chooseKernel params.sorted with
  | default =>
    rw [hk] at hN
    exact hr _ _ fun i hi => (hN i).1 hi
  | categorical _ _ =>
    rw [hk] at hC
    exact hc _ _ _ fun i hi => (hC i).1 hi
  | mixed _ _ c =>
    rw [hk] at hN hC
    simp only [GPKernel.columns] at hN hC
    simp only [covariance]
    rw [hr _ _ fun i hi => (hN i).1 hi, hc _ _ _ fun i hi => (hC i).1 hi]

/-- C146. The order in which the parameters are written in the space does not matter. -/
theorem C146_parameter_order (params params' : Dict Bool) (hn : params.keys.Nodup)
    (hp : params.Perm params') (h : Hyper) (x y : ℕ → ℝ) :
    surrogateCov params h x y = surrogateCov params' h x y := by
  unfold surrogateCov
  rw [sorted_eq_of_perm hn hp]

/-- Non-vacuity: a space with two numbers and a category; the numbers are columns 1 and 2. -/
example : chooseKernel (Dict.sorted [("lr", false), ("batch", true), ("wd", false)]) =
    .mixed 2 [1, 2] (1, some [0]) := by
  have : Dict.sorted [("lr", false), ("batch", true), ("wd", false)] =
      Dict.sorted [("batch", true), ("lr", false), ("wd", false)] :=
    sorted_eq_of_perm (by decide) (List.Perm.swap _ _ _)
  rw [this]
  have h2 : Dict.sorted [("batch", true), ("lr", false), ("wd", false)] =
      [("batch", true), ("lr", false), ("wd", false)] := by
    apply List.mergeSort_of_pairwise
    decide
  rw [h2]
  rfl

example : (⟨fun _ => 1, fun _ => 1, 1⟩ : Hyper).Valid := ⟨by simp, by simp, by simp⟩

end Verif.Bo
