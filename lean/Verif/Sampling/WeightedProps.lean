import Verif.Sampling.BorderProps
import Mathlib.Algebra.BigOperators.Group.List.Basic
import Mathlib.Algebra.Order.BigOperators.Group.List
import Mathlib.Algebra.BigOperators.Ring.List

/-!
# C73: the weighted sampler mixes its samplers
-/

namespace Verif.Sampling

open Verif.Space Verif.Space.Domain

/-! ## Lemmas -/

/-- Filling the points of the `i`-th sampler from left to right. -/
def fill {α : Type*} (i : ℕ) : List ℕ → List α → List α → List α
  | c :: cs, o :: os, rows =>
    if c = i then
      match rows with
      | r :: rs => r :: fill i cs os rs
      | [] => o :: fill i cs os []
    else o :: fill i cs os rows
  | _, out, _ => out

theorem whereEq_cons (c : ℕ) (cs : List ℕ) (i : ℕ) :
    whereEq (c :: cs) i = (if c = i then [0] else []) ++ (whereEq cs i).map Nat.succ := by
  unfold whereEq
  rw [List.length_cons, List.range_succ_eq_map, List.filter_cons, List.filter_map]
  have : ((fun p => decide ((c :: cs)[p]? = some i)) ∘ Nat.succ) =
      fun p => decide (cs[p]? = some i) := by
    funext p; simp
  rw [this]
  by_cases h : c = i <;> simp [h]

theorem whereEq_length (chosen : List ℕ) (i : ℕ) : (whereEq chosen i).length = chosen.count i := by
  induction chosen with
  | nil => rfl
  | cons c cs ih =>
    rw [whereEq_cons, List.length_append, List.length_map, ih, List.count_cons]
    by_cases h : c = i <;> simp [h]
    omega

theorem foldl_set_succ {α : Type*} (l : List (ℕ × α)) (o : α) (os : List α) :
    (l.map fun p => (p.1 + 1, p.2)).foldl (fun acc p => acc.set p.1 p.2) (o :: os) =
      o :: l.foldl (fun acc p => acc.set p.1 p.2) os := by
  induction l generalizing os with
  | nil => rfl
  | cons p l ih => simp only [List.map_cons, List.foldl_cons, List.set_cons_succ, ih]

theorem zip_map_succ {α : Type*} (l : List ℕ) (rows : List α) :
    (l.map Nat.succ).zip rows = (l.zip rows).map fun p => (p.1 + 1, p.2) := by
  induction l generalizing rows with
  | nil => rfl
  | cons a l ih => cases rows <;> simp [ih]

theorem foldl_fill {α : Type*} (i : ℕ) (chosen : List ℕ) (out rows : List α)
    (hr : rows.length = chosen.count i) (ho : out.length = chosen.length) :
    ((whereEq chosen i).zip rows).foldl (fun acc p => acc.set p.1 p.2) out =
      fill i chosen out rows := by
  induction chosen generalizing out rows with
  | nil => cases out <;> simp_all [whereEq, fill]
  | cons c cs ih =>
    cases out with
    | nil => simp at ho
    | cons o os =>
      rw [whereEq_cons]
      by_cases h : c = i
      · subst h
        cases rows with
        | nil => simp at hr
        | cons r rs =>
          simp only [if_true, List.singleton_append, List.zip_cons_cons, List.foldl_cons,
            List.set_cons_zero, zip_map_succ, foldl_set_succ, fill]
          rw [ih os rs (by simpa using hr) (by simpa using ho)]
      · simp only [if_neg h, List.nil_append, zip_map_succ, foldl_set_succ, fill]
        rw [ih os rows (by simpa [List.count_cons, h] using hr) (by simpa using ho)]

theorem fill_length {α : Type*} (i : ℕ) (chosen : List ℕ) (out rows : List α) :
    (fill i chosen out rows).length = out.length := by
  induction chosen generalizing out rows with
  | nil => rfl
  | cons c cs ih =>
    cases out with
    | nil => rfl
    | cons o os =>
      unfold fill
      split
      · cases rows <;> simp [ih]
      · simp [ih]

theorem rowsOf_fill_self {α : Type*} (i : ℕ) (chosen : List ℕ) (out rows : List α)
    (hr : rows.length = chosen.count i) (ho : out.length = chosen.length) :
    rowsOf chosen (fill i chosen out rows) i = rows := by
  induction chosen generalizing out rows with
  | nil =>
    have : rows = [] := by simpa using hr
    subst this
    simp [rowsOf]
  | cons c cs ih =>
    cases out with
    | nil => simp at ho
    | cons o os =>
      by_cases h : c = i
      · subst h
        cases rows with
        | nil => simp at hr
        | cons r rs =>
          have := ih os rs (by simpa using hr) (by simpa using ho)
          simp only [rowsOf] at this ⊢
          simp [fill, this]
      · have := ih os rows (by simpa [List.count_cons, h] using hr) (by simpa using ho)
        simp only [rowsOf] at this ⊢
        simp [fill, h, this]

theorem rowsOf_fill_other {α : Type*} (i j : ℕ) (hij : j ≠ i) (chosen : List ℕ) (out rows : List α)
    (ho : out.length = chosen.length) :
    rowsOf chosen (fill i chosen out rows) j = rowsOf chosen out j := by
  induction chosen generalizing out rows with
  | nil => simp [rowsOf]
  | cons c cs ih =>
    cases out with
    | nil => simp at ho
    | cons o os =>
      have ho' : os.length = cs.length := by simpa using ho
      by_cases h : c = i
      · subst h
        have hne : ¬ c = j := fun e => hij e.symm
        cases rows with
        | nil =>
          have := ih os [] ho'
          simp only [rowsOf] at this ⊢
          simp [fill, hne, this]
        | cons r rs =>
          have := ih os rs ho'
          simp only [rowsOf] at this ⊢
          simp [fill, hne, this]
      · have := ih os rows ho'
        simp only [rowsOf] at this ⊢
        simp only [fill, if_neg h, List.zip_cons_cons, List.filter_cons]
        split <;> simp [this]

theorem foldlM_none {σ β : Type*} (f : σ → β → Option σ) (l : List β) (b : β) (hb : b ∈ l)
    (h : ∀ s, f s b = none) (s : σ) : l.foldlM f s = none := by
  induction l generalizing s with
  | nil => simp at hb
  | cons a l ih =>
    rw [List.foldlM_cons]
    rcases List.mem_cons.mp hb with rfl | hb
    · rw [h]; rfl
    · cases f s a with
      | none => rfl
      | some s' => exact ih hb s'

/-! ## C73 -/

/-- **C73, rows.** If every sampler returns as many points as it is asked for, the weighted
sampler returns one row for every point, and the rows of the points for which a sampler was drawn
are the samples of this sampler, each used once, in order. -/
theorem C73_rows (samplers : List Sampler) (tgt : List Domain) (chosen : List ℕ)
    (init : List (List ℝ)) (hi : init.length = chosen.length)
    (hc : ∀ c ∈ chosen, c < samplers.length) (samples : ℕ → List (List ℝ))
    (hs : ∀ i (h : i < samplers.length), i ∈ chosen →
      samplers[i].sample (chosen.count i) tgt = some (samples i) ∧
      (samples i).length = chosen.count i) :
    ∃ out, weightedSample samplers tgt chosen init = some out ∧ out.length = chosen.length ∧
      ∀ i ∈ chosen, rowsOf chosen out i = samples i := by
  unfold weightedSample
  suffices H : ∀ (k : ℕ) (rest : List Sampler) (out : List (List ℝ)),
      samplers.drop k = rest → k ≤ samplers.length → out.length = chosen.length →
      (∀ i ∈ chosen, i < k → rowsOf chosen out i = samples i) →
      ∃ out', ((List.range' k rest.length).zip rest).foldlM (weightedStep tgt chosen) out =
        some out' ∧ out'.length = chosen.length ∧ ∀ i ∈ chosen, rowsOf chosen out' i = samples i by
    have := H 0 samplers init (by simp) (by omega) hi (by intro i _ h; omega)
    simpa [List.range_eq_range'] using this
  intro k rest
  induction rest generalizing k with
  | nil =>
    intro out hd hk ho hinv
    refine ⟨out, rfl, ho, ?_⟩
    intro i hi'
    have h1 := hc i hi'
    have h2 : samplers.length ≤ k := List.drop_eq_nil_iff.mp hd
    exact hinv i hi' (by omega)
  | cons s rest ih =>
    intro out hd hk ho hinv
    have hlt : k < samplers.length := by
      by_contra hge
      rw [List.drop_eq_nil_of_le (by omega)] at hd
      simp at hd
    rw [List.drop_eq_getElem_cons hlt] at hd
    simp only [List.cons.injEq] at hd
    obtain ⟨hsk, hrest⟩ := hd
    rw [List.length_cons, List.range'_succ, List.zip_cons_cons, List.foldlM_cons]
    have hstep : weightedStep tgt chosen out (k, s) = if 0 < chosen.count k then do
        let rows ← s.sample (chosen.count k) tgt
        assignRows out (whereEq chosen k) rows
      else some out := by
      unfold weightedStep
      simp only [whereEq_length]
    rw [hstep]
    by_cases h0 : 0 < chosen.count k
    · have hmem : k ∈ chosen := List.count_pos_iff.mp h0
      obtain ⟨hs1, hs2⟩ := hs k hlt hmem
      rw [hsk] at hs1
      have hassign : assignRows out (whereEq chosen k) (samples k) =
          some (fill k chosen out (samples k)) := by
        unfold assignRows
        rw [if_pos (by rw [hs2, whereEq_length]), foldl_fill k chosen out _ hs2 ho]
      simp only [h0, if_true, hs1, Option.bind_eq_bind, Option.bind_some, hassign]
      apply ih (k + 1) (fill k chosen out (samples k)) (by simpa using hrest) (by omega)
        (by rw [fill_length, ho])
      intro i hi' hlt'
      by_cases hik : i = k
      · subst hik; exact rowsOf_fill_self i chosen out _ hs2 ho
      · rw [rowsOf_fill_other k i hik chosen out _ ho]
        exact hinv i hi' (by omega)
    · simp only [h0, if_false, Option.bind_eq_bind, Option.bind_some]
      apply ih (k + 1) out (by simpa using hrest) (by omega) ho
      intro i hi' hlt'
      by_cases hik : i = k
      · subst hik; exact absurd (List.count_pos_iff.mpr hi') h0
      · exact hinv i hi' (by omega)

/-- The border sampler as a part of a mixture. -/
noncomputable def borderSampler (d : ℕ) (perm : List ℕ) : Sampler :=
  ⟨d, fun n tgt => border d (.count n) tgt perm⟩

/-- **C73 fails** for a mixture with a border sampler: as soon as it is drawn for more points than
there are corners, the whole call raises, although every part of the mixture can be sampled on its
own. -/
theorem C73_border_fails (samplers : List Sampler) (tgt : List Domain)
    (hd : ∀ t ∈ tgt, Declared t) (hpos : 0 < tgt.length) (perm : List ℕ) (i : ℕ)
    (hi : samplers[i]? = some (borderSampler tgt.length perm)) (chosen : List ℕ)
    (hmany : 2 ^ tgt.length < chosen.count i) (init : List (List ℝ)) :
    weightedSample samplers tgt chosen init = none ∧
      ∃ rows, (borderSampler tgt.length perm).sample (chosen.count i) tgt = some rows := by
  obtain ⟨rows, h1, h2, -, -⟩ := C43_all_corners tgt hd (chosen.count i) hmany.le perm
  refine ⟨?_, rows, h1⟩
  unfold weightedSample
  apply foldlM_none _ _ (i, borderSampler tgt.length perm)
  · rw [List.mem_iff_getElem?]
    refine ⟨i, ?_⟩
    have hlt : i < samplers.length := (List.getElem?_eq_some_iff.mp hi).1
    rw [List.getElem?_zip_eq_some]
    exact ⟨List.getElem?_range hlt, hi⟩
  · intro out
    have h4 : 2 ≤ 2 ^ tgt.length := by
      calc 2 = 2 ^ 1 := rfl
        _ ≤ 2 ^ tgt.length := Nat.pow_le_pow_right (by omega) hpos
    unfold weightedStep
    simp only [whereEq_length]
    rw [if_pos (by omega)]
    have h5 : (borderSampler tgt.length perm).sample (chosen.count i) tgt = some rows := h1
    simp only [h5, Option.bind_eq_bind, Option.bind_some]
    unfold assignRows
    rw [if_neg (by rw [whereEq_length, h2]; omega)]
    match rows, h2 with
    | [], _ => rfl
    | [r], h2 => simp at h2; omega
    | _ :: _ :: _, _ => rfl

/-- **C73, probabilities.** For at least two samplers with the same number of columns and one
weight each, none negative and not all zero, the samplers are drawn with probabilities in
proportion to the weights. -/
theorem C73_probabilities (samplers : List Sampler) (weights : List ℝ)
    (h2 : 2 ≤ samplers.length) (hl : samplers.length = weights.length)
    (hc : ∀ s ∈ samplers, ∀ t ∈ samplers, s.ncols = t.ncols)
    (h0 : ∀ w ∈ weights, 0 ≤ w) (hp : ∃ w ∈ weights, 0 < w) :
    ∃ p, weightedProbs samplers weights = some p ∧ IsProbability p ∧
      p.length = weights.length ∧ ∀ (i j : ℕ) (w v a b : ℝ), weights[i]? = some w → weights[j]? = some v →
        p[i]? = some a → p[j]? = some b → a * v = b * w := by
  have hsum : 0 < weights.sum := by
    obtain ⟨w, hw, hpos⟩ := hp
    exact lt_of_lt_of_le hpos (List.single_le_sum h0 w hw)
  have hm : ∀ l : List ℝ, (l.mapM fun w => fdiv w weights.sum) =
      some (l.map fun w => w / weights.sum) := by
    intro l
    induction l with
    | nil => rfl
    | cons w l ih =>
      rw [List.mapM_cons, ih, fdiv_eq hsum.ne']
      rfl
  refine ⟨weights.map fun w => w / weights.sum, ?_, ⟨?_, ?_⟩, by simp, ?_⟩
  · unfold weightedProbs
    rw [if_neg (by omega), if_neg (by omega), if_neg (by simpa using hc), hm]
  · intro x hx
    obtain ⟨w, hw, rfl⟩ := List.mem_map.mp hx
    exact div_nonneg (h0 w hw) hsum.le
  · have : weights.map (fun w => w / weights.sum) = weights.map fun w => w * weights.sum⁻¹ := by
      apply List.map_congr_left; intro w _; rw [div_eq_mul_inv]
    rw [this, List.sum_map_mul_right, List.map_id', mul_inv_cancel₀ hsum.ne']
  · intro i j w v a b hw hv ha hb
    rw [List.getElem?_map, hw] at ha
    rw [List.getElem?_map, hv] at hb
    simp only [Option.map_some, Option.some.injEq] at ha hb
    subst ha hb
    ring

/-- Everything else is rejected. -/
theorem C73_rejected (samplers : List Sampler) (weights : List ℝ)
    (h : samplers.length < 2 ∨ samplers.length ≠ weights.length ∨
      ∃ s ∈ samplers, ∃ t ∈ samplers, s.ncols ≠ t.ncols) : weightedProbs samplers weights = none := by
  unfold weightedProbs
  split
  · rfl
  · split
    · rfl
    · rename_i h1 h2
      rw [if_pos]
      intro hall
      rcases h with h | h | ⟨s, hs, t, ht, hne⟩
      · exact h1 h
      · exact h2 h
      · exact hne (hall s hs t ht)

/-- The hypotheses of `C73_rows` can be met: two samplers, three points. -/
example : ∃ out, weightedSample
    [⟨1, fun n _ => some (List.replicate n [0])⟩, ⟨1, fun n _ => some (List.replicate n [1])⟩]
    [unitFloat] [1, 0, 1] [[7], [7], [7]] = some out ∧ out.length = 3 ∧
    ∀ i ∈ [1, 0, 1], rowsOf [1, 0, 1] out i =
      (fun i => if i = 0 then [[(0 : ℝ)]] else [[1], [1]]) i :=
  C73_rows _ _ _ _ rfl (by simp) _ (by
    intro i h hm
    rcases i with _ | _ | i
    · simp
    · simp
    · simp at h)

end Verif.Sampling
