import Verif.Bo.Model
import Verif.Space.EncodeLemmas

/-!
# C79: the training data of the Gaussian process
-/

namespace Verif.Bo

open Verif.Space

/-! ## Specification -/

/-- The reported losses. -/
def reported (trials : List Trial) : List ℝ :=
  trials.filterMap fun t => t.report.bind (·.loss)

/-- `m` is a median of the numbers: one of them, not above more than half of them and not below
more than half of them. -/
def IsMedian (m : ℝ) (l : List ℝ) : Prop :=
  m ∈ l ∧ l.length ≤ 2 * (l.filter fun x => x ≤ m).length ∧
    l.length ≤ 2 * (l.filter fun x => m ≤ x).length

/-! ## Lemmas -/

theorem split_fst (trials : List Trial) :
    (splitTrials trials).1 =
      trials.filterMap fun t => t.report.map fun r => (t.config, r.loss, r.cost) := by
  induction trials with
  | nil => rfl
  | cons t ts ih =>
    cases h : t.report with
    | none => simp [splitTrials, h, ih]
    | some r => simp [splitTrials, h, ih]

theorem split_snd (trials : List Trial) :
    (splitTrials trials).2 = (trials.filter fun t => t.report.isNone).map (·.config) := by
  induction trials with
  | nil => rfl
  | cons t ts ih =>
    cases h : t.report with
    | none => simp [splitTrials, h, ih]
    | some r => simp [splitTrials, h, ih]

theorem train_configs (trials : List Trial) :
    (splitTrials trials).1.map (·.1) =
      (trials.filter fun t => t.report.isSome).map (·.config) := by
  rw [split_fst]
  induction trials with
  | nil => rfl
  | cons t ts ih =>
    cases h : t.report with
    | none => simp [h, ih]
    | some r => simp [h, ih]

theorem train_losses (trials : List Trial) :
    (splitTrials trials).1.map (·.2.1) =
      (trials.filter fun t => t.report.isSome).map fun t => t.report.bind (·.loss) := by
  rw [split_fst]
  induction trials with
  | nil => rfl
  | cons t ts ih =>
    cases h : t.report with
    | none => simp [h, ih]
    | some r => simp [h, ih]

theorem train_costs (trials : List Trial) :
    (splitTrials trials).1.map (·.2.2) =
      (trials.filter fun t => t.report.isSome).map fun t => t.report.bind (·.cost) := by
  rw [split_fst]
  induction trials with
  | nil => rfl
  | cons t ts ih =>
    cases h : t.report with
    | none => simp [h, ih]
    | some r => simp [h, ih]

theorem losses_reported (trials : List Trial) :
    ((trials.filter fun t => t.report.isSome).map fun t => t.report.bind (·.loss)).filterMap id =
      reported trials := by
  unfold reported
  induction trials with
  | nil => rfl
  | cons t ts ih =>
    cases h : t.report with
    | none => simpa [h] using ih
    | some r =>
      cases h' : r.loss with
      | none => simpa [h, h'] using ih
      | some l => simpa [h, h'] using ih

theorem nanmedian_median (ys : List (Option ℝ)) (hne : ys.filterMap id ≠ []) :
    ∃ m, nanmedian ys = some m ∧ IsMedian m (ys.filterMap id) := by
  set l := ys.filterMap id with hl
  have hperm : (l.mergeSort (fun a b => decide (a ≤ b))).Perm l := List.mergeSort_perm _ _
  have hsort : (l.mergeSort (fun a b => decide (a ≤ b))).Pairwise (· ≤ ·) := by
    have := List.pairwise_mergeSort (le := fun a b : ℝ => decide (a ≤ b))
      (fun a b c => by simpa using le_trans) (fun a b => by simpa using le_total a b) l
    simpa using this
  set vs := l.mergeSort (fun a b => decide (a ≤ b)) with hvs
  have hlen : vs.length = l.length := hperm.length_eq
  have hpos : 0 < l.length := List.length_pos_iff.mpr hne
  have hk : (vs.length - 1) / 2 < vs.length := by omega
  refine ⟨vs[(vs.length - 1) / 2], ?_, ?_, ?_, ?_⟩
  · unfold nanmedian
    simp only [← hl, ← hvs]
    exact List.getElem?_eq_getElem hk
  · exact hperm.subset (List.getElem_mem hk)
  · have h1 := (hperm.filter (fun x => decide (x ≤ vs[(vs.length - 1) / 2]))).length_eq
    rw [← h1]
    have hsub : (vs.take ((vs.length - 1) / 2 + 1)).length ≤
        (vs.filter fun x => decide (x ≤ vs[(vs.length - 1) / 2])).length := by
      have hall : (vs.take ((vs.length - 1) / 2 + 1)).filter
          (fun x => decide (x ≤ vs[(vs.length - 1) / 2])) = vs.take ((vs.length - 1) / 2 + 1) := by
        rw [List.filter_eq_self]
        intro x hx
        obtain ⟨i, hi, rfl⟩ := List.mem_take_iff_getElem.mp hx
        rw [decide_eq_true_eq]
        rcases Nat.lt_or_ge i ((vs.length - 1) / 2) with h | h
        · exact List.pairwise_iff_getElem.mp hsort i _ (by omega) hk h
        · have : i = (vs.length - 1) / 2 := by omega
          subst this
          exact le_refl _
      calc _ = _ := by rw [hall]
        _ ≤ _ := ((List.take_sublist _ vs).filter _).length_le
    rw [List.length_take] at hsub
    omega
  · have h1 := (hperm.filter (fun x => decide (vs[(vs.length - 1) / 2] ≤ x))).length_eq
    rw [← h1]
    have hsub : (vs.drop ((vs.length - 1) / 2)).length ≤
        (vs.filter fun x => decide (vs[(vs.length - 1) / 2] ≤ x)).length := by
      have hall : (vs.drop ((vs.length - 1) / 2)).filter
          (fun x => decide (vs[(vs.length - 1) / 2] ≤ x)) = vs.drop ((vs.length - 1) / 2) := by
        rw [List.filter_eq_self]
        intro x hx
        obtain ⟨i, hi, rfl⟩ := List.mem_iff_getElem.mp hx
        rw [decide_eq_true_eq, List.getElem_drop]
        rcases Nat.eq_zero_or_pos i with h | h
        · subst h; exact le_refl _
        · exact List.pairwise_iff_getElem.mp hsort _ _ hk (by
            rw [List.length_drop] at hi; omega) (by omega)
      calc _ = _ := by rw [hall]
        _ ≤ _ := ((List.drop_sublist _ vs).filter _).length_le
    rw [List.length_drop] at hsub
    omega

theorem encodeTrials_y {e : Encoder} {init : ℕ → List (List ℝ)} {trials : List Trial} {d : GPData}
    (h : encodeTrials e init trials = some d) :
    d.y = ((trials.filter fun t => t.report.isSome).map fun t => t.report.bind (·.loss)).map
      fun l => match l with
        | some l => some l
        | none => nanmedian
          ((trials.filter fun t => t.report.isSome).map fun t => t.report.bind (·.loss)) := by
  unfold encodeTrials at h
  simp only [Option.bind_eq_bind, Option.bind_eq_some_iff] at h
  obtain ⟨x, -, h⟩ := h
  rw [train_losses] at h
  split at h
  · simp only [Option.bind_eq_some_iff, Option.pure_def, Option.some.injEq] at h
    obtain ⟨p, -, rfl⟩ := h
    rfl
  · simp only [Option.bind_some, Option.pure_def, Option.some.injEq] at h
    subst h
    rfl

/-! ## C79 -/

/-- **C79.** Every trial with a report is a row of the training data and every other trial a
pending row, each once and in order, with the encoded values of its configuration; costs are those
reported. -/
theorem C79_rows (e : Encoder) (hn : e.transformers.keys.Nodup) (init : ℕ → List (List ℝ))
    (hi : ∀ n, (init n).length = n ∧ ∀ r ∈ init n, r.length = e.transformers.length)
    (trials : List Trial) (row : Trial → List ℝ)
    (hrow : ∀ t ∈ trials, List.Forall₂
      (fun p x => ∃ v, t.config.get? p.1 = some v ∧ p.2.encode v = some x)
      e.transformers (row t)) :
    ∃ d, encodeTrials e init trials = some d ∧
      d.x = (trials.filter fun t => t.report.isSome).map row ∧
      d.pending = (if ∀ t ∈ trials, t.report.isSome then none
        else some ((trials.filter fun t => t.report.isNone).map row)) ∧
      d.cost = (trials.filter fun t => t.report.isSome).map (fun t => t.report.bind (·.cost)) ∧
      d.y.length = d.x.length := by
  have enc : ∀ (p : Trial → Bool), e.encode ((trials.filter p).map (·.config))
      (init (trials.filter p).length) = some ((trials.filter p).map row) := by
    intro p
    apply Encoder.encode_eq hn
    · rw [List.forall₂_map_left_iff, List.forall₂_map_right_iff]
      apply List.forall₂_same.mpr
      intro t ht
      exact hrow t (List.mem_filter.mp ht).1
    · rw [(hi _).1, List.length_map]
    · exact (hi _).2
  have hx := enc fun t => t.report.isSome
  have hp := enc fun t => t.report.isNone
  have hl1 : (splitTrials trials).1.length = (trials.filter fun t => t.report.isSome).length := by
    have := congrArg List.length (train_configs trials)
    simpa using this
  have hl2 : (splitTrials trials).2.length = (trials.filter fun t => t.report.isNone).length := by
    rw [split_snd, List.length_map]
  unfold encodeTrials
  simp only [train_configs, hl1, hx, Option.bind_eq_bind, Option.bind_some, hl2]
  by_cases hall : ∀ t ∈ trials, t.report.isSome
  · have h0 : (trials.filter fun t => t.report.isNone) = [] := by
      rw [List.filter_eq_nil_iff]
      intro t ht
      have := hall t ht
      cases h : t.report <;> simp_all
    simp only [h0, List.length_nil, gt_iff_lt, lt_irrefl, if_false, Option.pure_def, Option.some.injEq, exists_eq_left', train_costs, if_pos hall,
      List.length_map, hl1, and_self]
  · have h0 : 0 < (trials.filter fun t => t.report.isNone).length := by
      rw [List.length_pos_iff]
      intro h
      rw [List.filter_eq_nil_iff] at h
      apply hall
      intro t ht
      have := h t ht
      cases h : t.report <;> simp_all
    simp only [gt_iff_lt, h0, if_true, split_snd, hp, Option.map_some, Option.bind_some,
      Option.pure_def, Option.some.injEq, exists_eq_left', train_costs, if_neg hall,
      List.length_map, hl1, and_self]

/-- **C79.** The target of a training row is the loss reported for that trial; if a trial reports
none, it is a median of the reported losses. So with at least one reported loss, no target is
missing. -/
theorem C79_targets_partial (e : Encoder) (init : ℕ → List (List ℝ)) (trials : List Trial) (d : GPData)
    (h : encodeTrials e init trials = some d) (hne : reported trials ≠ []) :
    ∃ m, IsMedian m (reported trials) ∧
      d.y = (trials.filter fun t => t.report.isSome).map fun t =>
        some ((t.report.bind (·.loss)).getD m) := by
  obtain ⟨m, hm, hmed⟩ := nanmedian_median
    ((trials.filter fun t => t.report.isSome).map fun t => t.report.bind (·.loss))
    (by rw [losses_reported]; exact hne)
  rw [losses_reported] at hmed
  refine ⟨m, hmed, ?_⟩
  rw [encodeTrials_y h]
  simp only [hm, List.map_map]
  apply List.map_congr_left
  intro t _
  simp only [Function.comp]
  cases t.report.bind (·.loss) <;> rfl

/-- **C79 fails** if no trial has reported a loss: every target is NaN. -/
theorem C79_no_loss_fails (e : Encoder) (init : ℕ → List (List ℝ)) (trials : List Trial)
    (d : GPData) (h : encodeTrials e init trials = some d) (hno : reported trials = []) :
    ∀ y ∈ d.y, y = none := by
  rw [encodeTrials_y h]
  have hm : nanmedian ((trials.filter fun t => t.report.isSome).map
      fun t => t.report.bind (·.loss)) = none := by
    unfold nanmedian
    rw [losses_reported, hno]
    simp
  rw [hm]
  intro y hy
  rw [List.map_map, List.mem_map] at hy
  obtain ⟨t, ht, rfl⟩ := hy
  simp only [Function.comp]
  have hl : t.report.bind (·.loss) = none := by
    cases hb : t.report.bind (·.loss) with
    | none => rfl
    | some l =>
      exfalso
      have : l ∈ reported trials :=
        List.mem_filterMap.mpr ⟨t, (List.mem_filter.mp ht).1, hb⟩
      rw [hno] at this
      simp at this
  rw [hl]

/-- Three trials, one of them crashed and one running. -/
def someTrials : List Trial :=
  [⟨[("lr", .num 1)], some ⟨some 3, none⟩⟩, ⟨[("lr", .num 0)], some ⟨none, some 1⟩⟩,
    ⟨[("lr", .num 1)], none⟩]

example : reported someTrials ≠ [] := by simp [reported, someTrials]

example : ∃ d, encodeTrials
    ⟨[("lr", ⟨fun v => match v with | .num x => some x | .str _ => none, fun x => some (.num x)⟩)],
      []⟩ (fun n => List.replicate n [0]) someTrials = some d ∧
    d.x = [[1], [0]] ∧ d.pending = some [[1]] ∧ d.y = [some 3, some 3] := by
  refine ⟨_, rfl, ?_, ?_, ?_⟩ <;>
    simp [splitTrials, nanmedian, Encoder.indexOf, Dict.keys]

end Verif.Bo
