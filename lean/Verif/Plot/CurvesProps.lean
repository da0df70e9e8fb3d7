import Verif.Plot.CurvesLemmas
import Mathlib.Data.List.Nodup

/-!
# C153: the plot of learning curves shows every evaluation once
-/

namespace Neps.Plot

open Neps.Ids

/-! ## Specification -/

/-- Trial `r` is the evaluation of configuration `(lv r).1` at level `(lv r).2`: the ids of
multi-fidelity optimizers. -/
def Levels (lv : CsvRow → ℕ × ℕ) (rows : List CsvRow) : Prop :=
  ∀ r ∈ rows, r.id = natStr (lv r).1 ++ '_' :: natStr (lv r).2

/-- Levels are counted from one: if level 0 occurs, all are one more. -/
def shown (lv : CsvRow → ℕ × ℕ) (rows : List CsvRow) (r : CsvRow) : ℕ :=
  (lv r).2 + if ∃ q ∈ rows, (lv q).2 = 0 then 1 else 0

/-- `a` was not started after `b`; trials without a start come last. -/
def StartsBy (a b : CsvRow) : Prop :=
  match a.started, b.started with
  | _, none => True
  | none, some _ => False
  | some x, some y => x ≤ y

theorem shown_eq (lv : CsvRow → ℕ × ℕ) (rows : List CsvRow) (r : CsvRow) :
    shown lv rows r = (lv r).2 + shiftOf (rows.map fun r => (lv r).2) := by
  unfold shown shiftOf
  simp only [List.mem_map]

theorem startsBy_of {a b : CsvRow} (h : timeLe a.started b.started = true) : StartsBy a b := by
  unfold StartsBy
  cases ha : a.started <;> cases hb : b.started <;> simp_all [timeLe]

/-! ## Properties -/

/-- **C153**: for a run of a multi-fidelity optimizer the plot is drawn; there is an order of the
trials by start, in which their places are their colours, such that every trial has exactly one place
in the picture, and each line or point of the flat plot consists of the trials of one configuration in
that order, at their levels and losses. -/
theorem C153_curves (rows : List CsvRow) (lv : CsvRow → ℕ × ℕ) (hne : rows ≠ [])
    (h : Levels lv rows) :
    ∃ (fig : Figure) (l : List CsvRow), plotCurves true rows = some fig ∧ l.Perm rows ∧ l.Pairwise StartsBy ∧
      (fig.drawn.flatMap (·.colours)).Perm (List.range rows.length) ∧
      ∀ d ∈ fig.drawn, d.colours.Pairwise (· < ·) ∧
        (∃ c, ∀ i, i ∈ d.colours ↔ ∃ r, l[i]? = some r ∧ (lv r).1 = c) ∧
        d.flat.map some = d.colours.map fun i =>
          l[i]?.map fun r => ((shown lv rows r : ℚ), r.loss) := by
  obtain ⟨l, hp, hs, he⟩ := prepRows_eq rows lv hne h
  set R : CsvRow → CurveRow := fun r =>
    ⟨(lv r).1, ((lv r).2 + shiftOf (rows.map fun r => (lv r).2) : ℕ), r⟩ with hR
  refine ⟨_, l, by rw [plotCurves, he, Option.map_some], hp, hs.imp fun hab => startsBy_of hab.1,
    ?_, ?_⟩
  · simp only [List.flatMap_map, drawGroup_colours]
    have e : ((configsOf (l.map R)).zipIdx.flatMap fun c => (groupOf (l.map R) c.1).map (·.2)) =
        (configsOf (l.map R)).flatMap fun c => (groupOf (l.map R) c).map (·.2) := by
      conv_rhs => rw [← List.zipIdx_map_fst 0 (configsOf (l.map R)), List.flatMap_map]
    rw [e]
    apply (List.perm_ext_iff_of_nodup _ List.nodup_range).mpr
    · intro i
      simp only [List.mem_flatMap, List.mem_map, mem_groupOf, List.mem_range, mem_configsOf]
      constructor
      · rintro ⟨c, -, ⟨r, j⟩, ⟨hj, -⟩, rfl⟩
        have := (List.getElem?_eq_some_iff.mp hj).1
        rw [List.length_map, hp.length_eq] at this
        exact this
      · intro hi
        have hi' : i < (l.map R).length := by rw [List.length_map, hp.length_eq]; exact hi
        refine ⟨((l.map R)[i]).config, ⟨_, List.mem_map.mp (List.getElem_mem hi'), rfl⟩,
          ((l.map R)[i], i), ⟨List.getElem?_eq_getElem hi', rfl⟩, rfl⟩
    · rw [List.nodup_flatMap]
      refine ⟨fun c _ => (groupOf_colours _ c).imp fun h => Nat.ne_of_lt h, ?_⟩
      refine (nodup_configsOf (l.map R)).imp fun {c c'} hcc => ?_
      intro i hi hi'
      obtain ⟨⟨r, j⟩, hm, rfl⟩ := List.mem_map.mp hi
      obtain ⟨⟨r', j'⟩, hm', hj⟩ := List.mem_map.mp hi'
      rw [mem_groupOf] at hm hm'
      simp only at hj hm hm'
      rw [hj, hm.1] at hm'
      obtain rfl := Option.some.inj hm'.1
      exact hcc (hm.2.symm.trans hm'.2)
  · intro d hd
    simp only [List.mem_map] at hd
    obtain ⟨⟨c, idx⟩, hci, rfl⟩ := hd
    obtain ⟨n, rfl⟩ : ∃ n : ℕ, (n : ℤ) = c := by
      have hc : c ∈ configsOf (l.map R) := List.fst_mem_of_mem_zipIdx hci
      obtain ⟨x, hx, rfl⟩ := (mem_configsOf _ _).mp hc
      obtain ⟨q, -, rfl⟩ := List.mem_map.mp hx
      exact ⟨_, rfl⟩
    rw [drawGroup_colours, drawGroup_flat]
    refine ⟨groupOf_colours _ _, ⟨n, fun i => ?_⟩, ?_⟩
    · simp only [List.mem_map, mem_groupOf]
      constructor
      · rintro ⟨⟨r, j⟩, ⟨hj, hc⟩, rfl⟩
        rw [List.getElem?_map, Option.map_eq_some_iff] at hj
        obtain ⟨q, hq, rfl⟩ := hj
        exact ⟨q, hq, by simpa [hR] using hc⟩
      · rintro ⟨q, hq, hc⟩
        refine ⟨(R q, i), ⟨?_, by simp [hR, hc]⟩, rfl⟩
        rw [List.getElem?_map, hq, Option.map_some]
    · rw [List.map_map, List.map_map]
      refine List.map_congr_left fun p hp' => ?_
      obtain ⟨hj, -⟩ := (mem_groupOf _ _ _).mp hp'
      rw [List.getElem?_map, Option.map_eq_some_iff] at hj
      obtain ⟨q, hq, hpq⟩ := hj
      simp only [Function.comp, hq, Option.map_some, ← hpq, shown_eq, hR]
      norm_cast

/-- **C153**: the lines and points come in the order in which their configurations were first
evaluated. -/
theorem C153_order (rows : List CsvRow) (fig : Figure) (h : plotCurves true rows = some fig) :
    fig.drawn.Pairwise fun d e => ∃ i ∈ d.colours, ∀ j ∈ e.colours, i < j := by
  unfold plotCurves at h
  obtain ⟨l, -, rfl⟩ := Option.map_eq_some_iff.mp h
  have e : ∀ xs : List (ℤ × ℕ), (xs.map (·.1)).Pairwise
      (fun a b => (l.map (·.config)).idxOf a < (l.map (·.config)).idxOf b) →
      (∀ x ∈ xs, x.1 ∈ configsOf l) →
      (xs.map fun c => drawGroup true c.2 (groupOf l c.1)).Pairwise
        fun d e => ∃ i ∈ d.colours, ∀ j ∈ e.colours, i < j := by
    intro xs hx hm
    rw [List.pairwise_map] at hx ⊢
    refine hx.imp_of_mem fun {a b} ha _ hab => ?_
    simp only [drawGroup_colours, List.mem_map, mem_groupOf]
    have hc : a.1 ∈ l.map (·.config) := by
      obtain ⟨r, hr, e⟩ := (mem_configsOf _ _).mp (hm a ha)
      exact List.mem_map.mpr ⟨r, hr, e⟩
    have hlt := List.idxOf_lt_length_of_mem hc
    have hget := List.getElem_idxOf hlt
    rw [List.length_map] at hlt
    rw [List.getElem_map] at hget
    refine ⟨_, ⟨(l[(l.map (·.config)).idxOf a.1], _), ⟨List.getElem?_eq_getElem hlt, hget⟩, rfl⟩, ?_⟩
    rintro j ⟨⟨r, j⟩, ⟨hj, hr⟩, rfl⟩
    refine lt_of_lt_of_le hab (idxOf_lt_of_mem_take ?_)
    simp only at hj hr
    rw [List.getElem?_map, hj, Option.map_some, hr]
  refine e _ ?_ fun x hx => List.fst_mem_of_mem_zipIdx hx
  have := List.zipIdx_map_fst 0 (configsOf l)
  rw [this]
  exact dedup_order _

/-- **C153**: the footnote counts the configurations, those evaluated at several levels and those
evaluated once; with or without the single points. -/
theorem C153_footnote (scatter : Bool) (rows : List CsvRow) (lv : CsvRow → ℕ × ℕ) (hne : rows ≠ [])
    (h : Levels lv rows) :
    ∃ fig : Figure, plotCurves scatter rows = some fig ∧
      fig.total = (rows.map fun r => (lv r).1).dedup.length ∧
      fig.several = ((rows.map fun r => (lv r).1).dedup.filter fun c =>
        2 ≤ rows.countP fun r => (lv r).1 = c).length ∧
      fig.several + fig.single = fig.total ∧
      fig.drawn.length = fig.total := by
  obtain ⟨l, hp, -, he⟩ := prepRows_eq rows lv hne h
  refine ⟨_, by rw [plotCurves, he, Option.map_some], ?_, ?_, rfl, ?_⟩
  · simp only
    have hsplit : ∀ ds : List Drawn, (ds.filter (·.line)).length +
        (ds.filter fun d => !d.line).length = ds.length := fun ds => by
      induction ds with
      | nil => rfl
      | cons d ds ih => cases hd : d.line <;> simp [hd] <;> omega
    rw [hsplit, List.length_map, List.length_zipIdx, (configsOf_perm l rows lv hp _).length_eq,
      List.length_map]
  · simp only
    rw [← List.countP_eq_length_filter, ← List.countP_eq_length_filter, List.countP_map]
    set L := l.map fun r => (⟨(lv r).1, ((lv r).2 + shiftOf (rows.map fun r => (lv r).2) : ℕ), r⟩ :
      CurveRow) with hL
    have e1 : (configsOf L).zipIdx.countP ((fun d => d.line) ∘
        fun c => drawGroup scatter c.2 (groupOf L c.1)) =
        (configsOf L).countP fun c => decide (2 ≤ (groupOf L c).length) := by
      conv_rhs => rw [← List.zipIdx_map_fst 0 (configsOf L), List.countP_map]
      congr 1
      funext c
      simp only [Function.comp, drawGroup_line]
    rw [e1, (configsOf_perm l rows lv hp _).countP_eq, List.countP_map]
    congr 1
    funext c
    simp only [Function.comp, groupOf_length, hL, List.countP_map]
    rw [← hp.countP_eq]
    simp [Function.comp_def]
  · simp only
    have hsplit : ∀ ds : List Drawn, (ds.filter (·.line)).length +
        (ds.filter fun d => !d.line).length = ds.length := fun ds => by
      induction ds with
      | nil => rfl
      | cons d ds ih => cases hd : d.line <;> simp [hd] <;> omega
    rw [hsplit]

/-- **C153** for lines: the plot in space shows the same as the flat plot, with the number of the
configuration in the order of `C153_order`. Missing: single points, see `C153_single_fails`. -/
theorem C153_space_partial (scatter : Bool) (rows : List CsvRow) (fig : Figure)
    (h : plotCurves scatter rows = some fig) (k : ℕ) (d : Drawn) (hk : fig.drawn[k]? = some d)
    (hd : d.line = true) : d.deep = d.flat.map fun p => (p.1, k, p.2) := by
  unfold plotCurves at h
  obtain ⟨l, -, rfl⟩ := Option.map_eq_some_iff.mp h
  simp only [List.getElem?_map, List.getElem?_zipIdx, Option.map_map, Option.map_eq_some_iff] at hk
  obtain ⟨c, -, rfl⟩ := hk
  simp only [Function.comp, Nat.zero_add] at hd ⊢
  exact drawGroup_deep _ _ _ hd

/-- A run of a multi-fidelity optimizer with fidelities from 1 to 9: configuration 0 was evaluated at
level 0 and then at level 2, configuration 1 at level 1. -/
def curvesRun : List CsvRow :=
  [⟨"0_0".toList, 1, some 5, some 10, some 11⟩, ⟨"1_1".toList, 3, some 4, some 12, some 13⟩,
    ⟨"0_2".toList, 9, some 2, some 14, some 20⟩]

/-- The levels of `curvesRun`. -/
def curvesLv (r : CsvRow) : ℕ × ℕ :=
  if r.id = "0_0".toList then (0, 0) else if r.id = "1_1".toList then (1, 1) else (0, 2)

/-- The figure of `curvesRun`. -/
def curvesFig : Figure :=
  { drawn := [⟨true, [(1, some 5), (3, some 2)], [(1, 0, some 5), (3, 0, some 2)], [0, 2]⟩,
      ⟨false, [(2, some 4)], [(0, 1, some 4)], [1]⟩]
    total := 2, several := 1, single := 1, limits := (some 1, some 9) }

theorem curvesRun_plot : plotCurves true curvesRun = some curvesFig := by
  have h1 : curvesRun.mapM curveRow = some (curvesRun.map fun r =>
      ⟨(curvesLv r).1, (curvesLv r).2, r⟩) := by decide +kernel
  have h2 : (shiftEpochs (curvesRun.map fun r => ⟨(curvesLv r).1, (curvesLv r).2, r⟩)).mergeSort
      rowLe = shiftEpochs (curvesRun.map fun r => ⟨(curvesLv r).1, (curvesLv r).2, r⟩) :=
    List.mergeSort_of_pairwise (by decide +kernel)
  unfold plotCurves prepRows
  rw [if_neg (by simp [curvesRun]), h1, Option.map_some, h2]
  decide +kernel

/-- Hypotheses of `C153_curves`, `C153_footnote`, `C153_order` and `C153_space_partial`. -/
example : curvesRun ≠ [] ∧ Levels curvesLv curvesRun ∧ plotCurves true curvesRun = some curvesFig ∧
    ∃ d, curvesFig.drawn[0]? = some d ∧ d.line = true :=
  ⟨by simp [curvesRun], by unfold Levels; decide +kernel, curvesRun_plot, _, rfl, rfl⟩

/-- **C153 fails for single points in space**: a configuration that was evaluated once, at level 1
(counted from one: 2), is drawn at 2 in the flat plot and at 0 in space. -/
theorem C153_single_fails :
    ∃ fig d, plotCurves true curvesRun = some fig ∧ d ∈ fig.drawn ∧ d.flat = [(2, some 4)] ∧
      d.deep = [(0, 1, some 4)] :=
  ⟨_, ⟨false, [(2, some 4)], [(0, 1, some 4)], [1]⟩, curvesRun_plot, by decide +kernel, rfl, rfl⟩

/-- **C153 fails for the axis of fidelities**: the axis, labelled with epochs, has the range of the
fidelities, but the evaluation with fidelity 9 is drawn at 3, the number of its level. -/
theorem C153_axis_fails :
    ∃ fig d, plotCurves true curvesRun = some fig ∧ d ∈ fig.drawn ∧ fig.limits = (some 1, some 9) ∧
      (∃ r ∈ curvesRun, r.loss = some 2 ∧ r.fidelity = 9) ∧
      d.flat = [(1, some 5), (3, some 2)] :=
  ⟨_, ⟨true, [(1, some 5), (3, some 2)], [(1, 0, some 5), (3, 0, some 2)], [0, 2]⟩, curvesRun_plot,
    by decide +kernel, rfl, by decide +kernel, rfl⟩

/-- **C153 fails for the other optimizers**, whose ids are numbers: one such trial, and the plot raises
an exception. -/
theorem C153_ids_fails (scatter : Bool) (rows : List CsvRow) (r : CsvRow) (n : ℕ) (hr : r ∈ rows)
    (hid : r.id = natStr n) : plotCurves scatter rows = none := by
  have hc : curveRow r = none := by
    simp only [curveRow, hid, split_none _ _ (natStr_no_underscore n)]
  have hm : rows.mapM curveRow = none := by
    clear hid
    induction rows with
    | nil => simp at hr
    | cons a rows ih =>
      rw [List.mapM_cons]
      rcases List.mem_cons.mp hr with rfl | hr
      · rw [hc]; rfl
      · rw [ih hr]
        cases curveRow a <;> rfl
  unfold plotCurves prepRows
  split
  · rfl
  · rw [hm]; rfl

/-- Hypotheses of `C153_ids_fails`. -/
example : (⟨"7".toList, 1, some 5, some 10, some 11⟩ : CsvRow).id = natStr 7 := by decide +kernel

end Neps.Plot
