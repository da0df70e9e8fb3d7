import Verif.Ifbo.Levels
import Verif.Ifbo.Acquire

/-!
# What `ask` proposes after a history
-/

namespace Verif.Ifbo

open Verif.Space Verif.Space.Domain

variable {α : Type}

theorem lt_newId (ts : List (Tr α)) : ∀ t ∈ ts, t.cfg < newId ts := by
  have key : ∀ (ts : List (Tr α)) (m : ℕ), m ≤ ts.foldl (fun m u => max m u.cfg) m ∧
      ∀ t ∈ ts, t.cfg ≤ ts.foldl (fun m u => max m u.cfg) m := by
    intro ts
    induction ts with
    | nil => simp
    | cons u ts ih =>
      intro m
      obtain ⟨h1, h2⟩ := ih (max m u.cfg)
      simp only [List.foldl_cons]
      refine ⟨by omega, ?_⟩
      intro t ht
      rcases List.mem_cons.mp ht with rfl | ht
      · omega
      · exact h2 t ht
  cases ts with
  | nil => simp
  | cons u ts =>
    intro t ht
    obtain ⟨h1, h2⟩ := key ts u.cfg
    simp only [newId]
    rcases List.mem_cons.mp ht with rfl | ht
    · omega
    · have := h2 t ht; omega

/-- Every trial is at one of the levels, the one its id names. -/
def AtLevels (n : ℕ) (level : ℤ → ℝ) (ts : List (Tr α)) : Prop :=
  ∀ t ∈ ts, 0 ≤ t.label ∧ t.label ≤ n - 1 ∧ t.fid = level t.label

theorem encode_atLevels {s : Optimizer α} {n : ℕ} {level b : ℤ → ℝ}
    (hb : ∀ i : ℤ, 0 ≤ i → i ≤ n - 1 → s.budgetDom.cast (level i) s.fidDom = some (b i))
    {ts : List (Tr α)} (ht : AtLevels n level ts) :
    ts.mapM (encodeTrial s) = some (ts.map fun t =>
      (⟨t.cfg + 1, b t.label, t.config⟩, (minimizeY t.report).map (1 - ·))) := by
  induction ts with
  | nil => rfl
  | cons t ts ih =>
    obtain ⟨h0, h1, h2⟩ := ht t List.mem_cons_self
    have ih := ih (fun u hu => ht u (List.mem_cons_of_mem _ hu))
    rw [List.mapM_cons, ih]
    simp only [encodeTrial, h2, hb _ h0 h1, Option.bind_eq_bind, Option.bind_some, Option.pure_def,
      List.map_cons]

open Classical in
/-- The rows given to the surrogate that may be continued. -/
noncomputable def doneRows (b : ℤ → ℝ) (ts : List (Tr α)) : List (Row α) :=
  (ts.filter fun t => decide (Done t)).map fun t => ⟨t.cfg + 1, b t.label, t.config⟩

theorem notPending_eq (b : ℤ → ℝ) (ts : List (Tr α)) :
    ((ts.map fun t => ((⟨t.cfg + 1, b t.label, t.config⟩ : Row α),
      (minimizeY t.report).map (1 - ·))).filter fun r => r.2.isSome).map (·.1) = doneRows b ts := by
  classical
  unfold doneRows
  induction ts with
  | nil => rfl
  | cons t ts ih =>
    simp only [List.map_cons, List.filter_cons, Option.isSome_map]
    cases hy : minimizeY t.report with
    | none =>
      have : ¬ Done t := by rintro ⟨y, hy'⟩; rw [hy] at hy'; cases hy'
      simp only [Option.isSome_none, Bool.false_eq_true, if_false, this, decide_false]
      exact ih
    | some y =>
      have : Done t := ⟨y, hy⟩
      simp only [Option.isSome_some, if_true, this, decide_true, List.map_cons]
      rw [ih]

theorem mem_doneRows {b : ℤ → ℝ} {ts : List (Tr α)} {r : Row α} :
    r ∈ doneRows b ts ↔ ∃ t ∈ ts, Done t ∧ r = ⟨t.cfg + 1, b t.label, t.config⟩ := by
  classical
  unfold doneRows
  simp only [List.mem_map, List.mem_filter, decide_eq_true_eq]
  constructor
  · rintro ⟨t, ⟨h1, h2⟩, rfl⟩; exact ⟨t, h1, h2, rfl⟩
  · rintro ⟨t, h1, h2, rfl⟩; exact ⟨t, ⟨h1, h2⟩, rfl⟩

/-- `ask` after the initial design, on trials at the levels. -/
theorem ask_eq {s : Optimizer α} {n : ℕ} {level b : ℤ → ℝ}
    (hb : ∀ i : ℤ, 0 ≤ i → i ≤ n - 1 → s.budgetDom.cast (level i) s.fidDom = some (b i))
    {ts : List (Tr α)} (ht : AtLevels n level ts) (hd : s.design[newId ts]? = none)
    (score : Row α → ℝ) (bts : List (Batch α)) :
    ask s score bts ts =
      (outOfRange (ts.map fun t => minimizeY t.report)).bind fun bad =>
        if bad then none
        else if s.ixDom.upper ≤ s.ixDom.lower then none
        else (acquire score s.budgetDom (doneRows b ts) bts).bind fun row =>
          row.bind (decide' s (newId ts)) := by
  have hn := notPending_eq b ts
  unfold ask encode
  simp only [hd, encode_atLevels hb ht, Option.bind_eq_bind, Option.bind_some, Option.pure_def]
  cases outOfRange (ts.map fun t => minimizeY t.report) with
  | none => rfl
  | some bad =>
    cases bad with
    | true => rfl
    | false =>
      simp only [Option.bind_some, Bool.false_eq_true, if_false]
      split
      · rfl
      · rw [hn]

/-- What `ask` proposes on trials at the levels: a new configuration at the lowest level, or the
continuation of the highest finished trial of a configuration. -/
theorem ask_cases {s : Optimizer α} {n : ℕ} {level : ℤ → ℝ} {idx : ℤ → ℤ}
    (hg : Good s n level idx) {ts : List (Tr α)} (ht : AtLevels n level ts)
    {score : Row α → ℝ} {bts : List (Batch α)} {p : Proposal α}
    (h : ask s score bts ts = some p) :
    (p.prev = none ∧ p.label = 0 ∧ p.cfg = newId ts ∧ p.fid = some (level 0)) ∨
    ∃ t ∈ ts, Done t ∧ t.label < n - 1 ∧
      p = ⟨t.cfg, idx t.label + 1, t.config, s.fidDom.cast ((idx t.label + 1 : ℤ) : ℝ) s.ixDom,
        some (t.cfg, idx t.label)⟩ ∧
      ∀ t' ∈ ts, t'.cfg = t.cfg → Done t' → t'.label ≤ t.label := by
  obtain ⟨b, hb⟩ := hg.budget
  cases hd : s.design[newId ts]? with
  | some c =>
    unfold ask at h
    simp only [hd, Option.some.injEq] at h
    subst h
    exact Or.inl ⟨rfl, rfl, rfl, by rw [hg.min]⟩
  | none =>
    rw [ask_eq (fun i h0 h1 => (hb i h0 h1).1) ht hd] at h
    cases ho : outOfRange (ts.map fun t => minimizeY t.report) with
    | none => rw [ho] at h; cases h
    | some bad =>
      rw [ho] at h
      simp only [Option.bind_some] at h
      split at h
      · cases h
      split at h
      · cases h
      cases ha : acquire score s.budgetDom (doneRows b ts) bts with
      | none => rw [ha] at h; cases h
      | some row? =>
        rw [ha] at h
        cases row? with
        | none => cases h
        | some row =>
          simp only [Option.bind_some] at h
          rcases acquire_cases ha with hmem | ⟨hid, hbud⟩
          · right
            obtain ⟨hrow, hlt, hmax⟩ := existing_spec _ _ _ hmem
            obtain ⟨t, htm, htd, rfl⟩ := mem_doneRows.mp hrow
            obtain ⟨h0, h1, -⟩ := ht t htm
            obtain ⟨-, hb2, hb3, -⟩ := hb t.label h0 h1
            simp only at hlt
            obtain ⟨hlt', hmono⟩ := hb3 hlt
            refine ⟨t, htm, htd, hlt', ?_, ?_⟩
            · unfold decide' at h
              simp only [Nat.add_eq_zero_iff, one_ne_zero, and_false, if_false, hb2,
                Option.bind_eq_bind, Option.bind_some, hg.ixOfFid _ h0 h1, Int.floor_intCast,
                Option.pure_def, Option.some.injEq, Nat.add_sub_cancel] at h
              exact h.symm
            · intro t' ht' hc hdone
              by_contra hgt
              obtain ⟨h0', h1', -⟩ := ht t' ht'
              have h2 := hmono t'.label (by omega) h1'
              have h3 := hmax ⟨t'.cfg + 1, b t'.label, t'.config⟩
                (mem_doneRows.mpr ⟨t', ht', hdone, rfl⟩) (by simp [hc])
              simp only at h3
              linarith
          · left
            unfold decide' at h
            rw [hid, hbud, hg.newFid] at h
            simp only [if_true, Option.some.injEq] at h
            subst h
            exact ⟨rfl, rfl, rfl, rfl⟩

/-- With a score that prefers evaluated configurations, `ask` continues one as soon as there is a
finished trial and no finished trial is complete. -/
theorem ask_continues {s : Optimizer α} {n : ℕ} {level : ℤ → ℝ} {idx : ℤ → ℤ}
    (hg : Good s n level idx) (hlow : s.budgetDom.lower < s.budgetDom.upper) {ts : List (Tr α)}
    (ht : AtLevels n level ts) (hd : s.design[newId ts]? = none)
    (hr : outOfRange (ts.map fun t => minimizeY t.report) = some false) {t : Tr α} (htm : t ∈ ts)
    (htd : Done t) (hinc : ∀ t' ∈ ts, Done t' → t'.label < n - 1) (x : α) :
    ∃ p, ask s (fun r => (r.id : ℝ)) [⟨[x], fun _ => [x]⟩] ts = some p ∧ p.prev ≠ none := by
  obtain ⟨b, hb⟩ := hg.budget
  obtain ⟨-, -, hex, -⟩ := keepHighest_spec (doneRows b ts)
  obtain ⟨r, hrk, hrid⟩ := hex _ (mem_doneRows.mpr ⟨t, htm, htd, rfl⟩)
  have hrm := (keepHighest_spec (doneRows b ts)).1 r hrk
  obtain ⟨t1, ht1, hd1, rfl⟩ := mem_doneRows.mp hrm
  obtain ⟨h0, h1, -⟩ := ht t1 ht1
  have helig := (hb _ h0 h1).2.2.2 hlow (hinc t1 ht1 hd1)
  have hmem : (⟨t1.cfg + 1, b t1.label, t1.config⟩ : Row α) ∈ (keepHighest (doneRows b ts)).filter
      fun r => decide (r.budget < s.budgetDom.upper) := by
    rw [List.mem_filter]
    exact ⟨hrk, by simpa using helig⟩
  cases ham : argmax (fun r : Row α => (r.id : ℝ)) ((keepHighest (doneRows b ts)).filter
      fun r => decide (r.budget < s.budgetDom.upper)) with
  | none => rw [argmax_none] at ham; rw [ham] at hmem; cases hmem
  | some best =>
    obtain ⟨hbm, hbmax⟩ := argmax_spec _ _ _ ham
    have hbid : 1 ≤ best.id := by
      have := hbmax _ hmem
      simp only [Nat.cast_le] at this
      omega
    have hacq : acquire (fun r : Row α => (r.id : ℝ)) s.budgetDom (doneRows b ts)
        [⟨[x], fun _ => [x]⟩] = some (some best) := by
      unfold acquire
      simp only [ham, List.foldlM_cons, List.foldlM_nil]
      have hb0 : ¬ ((best.id : ℝ) < 0) := by simp
      simp [tryBatch, argmax, better]
    obtain ⟨hbm1, -⟩ := existing_spec _ _ _ hbm
    obtain ⟨t2, ht2, hd2, rfl⟩ := mem_doneRows.mp hbm1
    obtain ⟨h0', h1', -⟩ := ht t2 ht2
    have hn2 := hg.n2
    rw [ask_eq (fun i h0 h1 => (hb i h0 h1).1) ht hd, hr, hacq]
    simp only [Option.bind_some, Bool.false_eq_true, if_false]
    rw [if_neg]
    · refine ⟨⟨t2.cfg, idx t2.label + 1, t2.config,
        s.fidDom.cast ((idx t2.label + 1 : ℤ) : ℝ) s.ixDom, some (t2.cfg, idx t2.label)⟩, ?_,
        by simp⟩
      unfold decide'
      simp only [Nat.add_eq_zero_iff, one_ne_zero, and_false, if_false, (hb _ h0' h1').2.1,
        Option.bind_eq_bind, Option.bind_some, hg.ixOfFid _ h0' h1', Int.floor_intCast,
        Option.pure_def, Nat.add_sub_cancel]
    · rw [hg.ix]
      simp only [intDom, not_le]
      have : (0 : ℤ) < (n : ℤ) - 1 := by omega
      exact_mod_cast this

/-- What holds in every history when the index of a level is its number. -/
structure Inv (n : ℕ) (level : ℤ → ℝ) (ts : List (Tr α)) : Prop where
  levels : AtLevels n level ts
  ids : ts.Pairwise fun t t' => ¬ (t.cfg = t'.cfg ∧ t.label = t'.label)
  steps : ∀ t ∈ ts, 0 < t.label →
    ∃ t' ∈ ts, t'.cfg = t.cfg ∧ t'.label = t.label - 1 ∧ t'.config = t.config ∧ Done t'

theorem Reach.inv {s : Optimizer α} {n : ℕ} {level : ℤ → ℝ} (hg : Good s n level id)
    {ts : List (Tr α)} (hr : Reach s ts) : Inv n level ts := by
  induction hr with
  | start => exact ⟨by simp [AtLevels], by simp, by simp⟩
  | @ask ts p score bts f _ ha hf hacc ih =>
    have hn2 := hg.n2
    have hpos : 0 ≤ p.label ∧ p.label ≤ n - 1 ∧ f = level p.label ∧
        (0 < p.label → ∃ t' ∈ ts, t'.cfg = p.cfg ∧ t'.label = p.label - 1 ∧
          t'.config = p.config ∧ Done t') := by
      rcases ask_cases hg ih.levels ha with ⟨-, h2, -, h4⟩ | ⟨t, htm, htd, hlt, rfl, -⟩
      · rw [hf] at h4
        cases h4
        rw [h2]
        exact ⟨le_rfl, by omega, rfl, by omega⟩
      · obtain ⟨h0, h1, -⟩ := ih.levels t htm
        simp only [id] at hf ⊢
        rw [hg.fidOfIx _ (by omega) (by omega)] at hf
        cases hf
        refine ⟨by omega, by omega, rfl, fun _ => ⟨t, htm, rfl, by simp, rfl, htd⟩⟩
    refine ⟨?_, ?_, ?_⟩
    · intro t ht
      rcases List.mem_cons.mp ht with rfl | ht
      · exact ⟨hpos.1, hpos.2.1, hpos.2.2.1⟩
      · exact ih.levels t ht
    · rw [List.pairwise_cons]
      refine ⟨?_, ih.ids⟩
      rintro t ht ⟨h1, h2⟩
      exact hacc.2 ⟨t, ht, h1.symm, h2.symm⟩
    · intro t ht h0
      rcases List.mem_cons.mp ht with rfl | ht
      · obtain ⟨t', h1, h2⟩ := hpos.2.2.2 h0
        exact ⟨t', List.mem_cons_of_mem _ h1, h2⟩
      · obtain ⟨t', h1, h2⟩ := ih.steps t ht h0
        exact ⟨t', List.mem_cons_of_mem _ h1, h2⟩
  | @report ts t r _ hp ih =>
    refine ⟨?_, ?_, ?_⟩
    · intro u hu
      rcases List.mem_cons.mp hu with rfl | hu
      · exact ih.levels t List.mem_cons_self
      · exact ih.levels u (List.mem_cons_of_mem _ hu)
    · have := ih.ids
      rw [List.pairwise_cons] at this ⊢
      exact this
    · intro u hu h0
      have hex : ∃ t' ∈ t :: ts, t'.cfg = u.cfg ∧ t'.label = u.label - 1 ∧
          t'.config = u.config ∧ Done t' := by
        rcases List.mem_cons.mp hu with rfl | hu
        · exact ih.steps t List.mem_cons_self h0
        · exact ih.steps u (List.mem_cons_of_mem _ hu) h0
      obtain ⟨t', h1, h2, h3, h4, h5⟩ := hex
      rcases List.mem_cons.mp h1 with rfl | h1
      · exfalso
        obtain ⟨y, hy⟩ := h5
        rw [hp] at hy
        cases hy
      · exact ⟨t', List.mem_cons_of_mem _ h1, h2, h3, h4, h5⟩
  | @perm ts ts' _ hp ih =>
    refine ⟨fun t ht => ih.levels t (hp.mem_iff.mpr ht), ?_, ?_⟩
    · refine (hp.pairwise_iff ?_).mp ih.ids
      rintro a b h ⟨h1, h2⟩
      exact h ⟨h1.symm, h2.symm⟩
    · intro t ht h0
      obtain ⟨t', h1, h2⟩ := ih.steps t (hp.mem_iff.mpr ht) h0
      exact ⟨t', hp.mem_iff.mp h1, h2⟩

end Verif.Ifbo
