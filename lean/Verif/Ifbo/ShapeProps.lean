import Verif.Ifbo.ShapeModel
import Verif.Ifbo.Casts
import Mathlib.Tactic.NormNum

/-!
# C166: ifBO with a single candidate for continuation
-/

namespace Verif.Ifbo

/-! ## Lemmas -/

theorem scoresShape_eq {bins n d : ℕ} (hb : 2 ≤ bins) :
    scoresShape bins [n, d] = some (if n = 1 then [] else [n]) := by
  have h1 : castShape [n, d] = some [n, 1, d] := by
    unfold castShape
    split <;> simp_all
  unfold scoresShape logitsShape
  simp only [h1, Option.map_some]
  have hb' : bins ≠ 1 := by omega
  by_cases hn : n = 1
  · simp [squeeze, hn, hb']
  · simp [squeeze, hn, hb']

/-! ## C166 -/

/-- **C166 (partial)**: two or more candidates get one score each, and one of them is picked.

Missing: a single candidate (`C166_single_fails`). -/
theorem C166_scores_partial (bins n d : ℕ) (hb : 2 ≤ bins) (hn : 2 ≤ n) :
    scoresShape bins [n, d] = some [n] ∧ picks [n] = true := by
  rw [scoresShape_eq hb, if_neg (by omega)]
  exact ⟨rfl, decide_eq_true (by omega)⟩

/-- **C166 fails** for a single candidate: its score has no dimension, and picking the best one raises. -/
theorem C166_single_fails (bins d : ℕ) (hb : 2 ≤ bins) :
    ∃ scores, scoresShape bins [1, d] = some scores ∧ picks scores = false := by
  refine ⟨[], ?_, rfl⟩
  rw [scoresShape_eq hb, if_pos rfl]

/-- **C166, fantasies**: the mean performance of any number of pending trials can be stored, also that of a single
one. -/
theorem C166_fantasies (bins k d : ℕ) (hb : 2 ≤ bins) :
    ∃ means, scoresShape bins [k, d] = some means ∧ assigns k means = true := by
  rw [scoresShape_eq hb]
  by_cases hk : k = 1
  · exact ⟨[], by simp [hk], by simp [assigns]⟩
  · exact ⟨[k], by simp [hk], by simp [assigns]⟩

/-- **C166, the rest is unaffected (partial)**: unless there is exactly one candidate for continuation, ifBO answers
as if shapes did not matter, so that C87 and C88 apply. -/
theorem C166_ask_partial {α : Type} (s : Optimizer α) (bins d : ℕ) (hb : 2 ≤ bins) (score : Row α → ℝ)
    (batches : List (Batch α)) (ts : List (Tr α)) (data : List (Row α × Option ℝ))
    (he : encode s ts = some data) (h1 : (existing s data).length ≠ 1) :
    askShaped s bins d score batches ts = ask s score batches ts := by
  unfold askShaped
  split
  · rfl
  · simp only [he, Option.bind_eq_bind, Option.bind_some]
    split
    · rfl
    · rename_i hne
      rw [scoresShape_eq hb, if_neg h1]
      have : 0 < (existing s data).length := List.length_pos_iff.mpr hne
      simp [picks, this]

/-- **C166 fails** whenever the initial design is used up and exactly one configuration can be continued. -/
theorem C166_one_candidate_fails {α : Type} (s : Optimizer α) (bins d : ℕ) (hb : 2 ≤ bins)
    (score : Row α → ℝ) (batches : List (Batch α)) (ts : List (Tr α)) (data : List (Row α × Option ℝ))
    (hd : s.design.length ≤ newId ts) (he : encode s ts = some data)
    (h1 : (existing s data).length = 1) : askShaped s bins d score batches ts = none := by
  unfold askShaped
  rw [List.getElem?_eq_none hd]
  simp only [he, Option.bind_eq_bind, Option.bind_some]
  rw [if_neg (by rintro h; simp [h] at h1), h1, scoresShape_eq hb, if_pos rfl]
  rfl

/-- **C166 fails** for a run whose initial design is one configuration: after its first evaluation ifBO raises. -/
theorem C166_first_configuration_fails {α : Type} (s : Optimizer α) (bins d : ℕ) (hb : 2 ≤ bins)
    (score : Row α → ℝ) (batches : List (Batch α)) (t : Tr α) (hd : s.design.length = 1) (b y : ℝ)
    (hc : s.budgetDom.cast t.fid s.fidDom = some b) (hu : b < s.budgetDom.upper)
    (hy : t.report = .loss (some y)) (h0 : 0 ≤ y) (h1 : y ≤ 1) :
    askShaped s bins d score batches [t] = none := by
  have he : encode s [t] = some [(⟨t.cfg + 1, b, t.config⟩, some (1 - y))] := by
    unfold encode
    have h2 : ¬ 1 < y := not_lt.mpr h1
    have h3 : ¬ y < 0 := not_lt.mpr h0
    simp [encodeTrial, hc, hy, minimizeY, outOfRange, tensorMax, tensorMin, h2, h3]
  refine C166_one_candidate_fails s bins d hb score batches [t] _ ?_ he ?_
  · simp [newId, hd]
  · simp [existing, keepHighest, lastOfGroups, hu]

/-- Shapes of 3 candidates and of 1 candidate with 4 columns and 1000 bins. -/
example : scoresShape 1000 [3, 4] = some [3] ∧ scoresShape 1000 [1, 4] = some [] ∧ picks [3] = true ∧
    picks [] = false ∧ assigns 1 [] = true := by decide

/-- A float fidelity from 1 to 3 in steps of 1, and one configuration as initial design. -/
noncomputable def demoShaped : Optimizer Unit :=
  ⟨1, floatDom 1 3, floatDom (1 / 3) 1, intDom 0 1, [()]⟩

/-- After the evaluation of this configuration at the lowest fidelity ifBO raises. -/
example (score : Row Unit → ℝ) (batches : List (Batch Unit)) :
    askShaped demoShaped 1000 3 score batches [⟨0, 0, (), 1, .loss (some (1 / 2))⟩] = none :=
  C166_first_configuration_fails demoShaped 1000 3 (by norm_num) score batches _ rfl (1 / 3) (1 / 2)
    (by
      simp only [demoShaped]
      rw [cast_float_float (by norm_num) (by norm_num)]
      norm_num)
    (by simp only [demoShaped, floatDom]; norm_num) rfl (by norm_num) (by norm_num)

/-- After its evaluation at the highest fidelity, where nothing can be continued, it goes on. -/
example (score : Row Unit → ℝ) (batches : List (Batch Unit)) :
    askShaped demoShaped 1000 3 score batches [⟨0, 1, (), 3, .loss (some (1 / 2))⟩] =
      ask demoShaped score batches [⟨0, 1, (), 3, .loss (some (1 / 2))⟩] := by
  have hc : (floatDom (1 / 3) 1).cast 3 (floatDom 1 3) = some 1 := by
    rw [cast_float_float (by norm_num) (by norm_num)]
    norm_num
  refine C166_ask_partial demoShaped 1000 3 (by norm_num) score batches _
    [(⟨1, 1, ()⟩, some (1 / 2))] ?_ ?_
  · unfold encode
    simp only [encodeTrial, demoShaped, hc, List.mapM_cons, List.mapM_nil, minimizeY, outOfRange, tensorMax,
      tensorMin, List.map_cons, List.map_nil, List.foldl_nil]
    norm_num
  · simp [existing, keepHighest, lastOfGroups, demoShaped, floatDom]

end Verif.Ifbo
