import Verif.Plot.Curves
import Verif.Cli.Lemmas
import Mathlib.Data.List.Dedup
import Mathlib.Data.List.Induction

/-!
# Lemmas about the plot of learning curves
-/

namespace Neps.Plot

open Neps.Ids

theorem curveRow_fmtId (r : CsvRow) (c e : ℕ) (h : r.id = fmtId c e) :
    curveRow r = some ⟨c, e, r⟩ := by
  have hs : split '_' (fmtId c e) = [natStr c, natStr e] := by
    simp only [fmtId, split_append _ _ _ (natStr_no_underscore c),
      split_none _ _ (natStr_no_underscore e)]
  simp only [curveRow, h, hs, Cli.pyInt_natStr']

theorem timeLe_total (a b : Option ℚ) : timeLe a b = true ∨ timeLe b a = true := by
  cases a <;> cases b <;> simp [timeLe, le_total]

theorem timeLe_trans {a b c : Option ℚ} (h1 : timeLe a b = true) (h2 : timeLe b c = true) :
    timeLe a c = true := by
  cases a <;> cases b <;> cases c <;> simp_all [timeLe]
  exact le_trans h1 h2

theorem rowLe_iff (a b : CurveRow) : rowLe a b = true ↔
    timeLe a.row.started b.row.started = true ∧
      (timeLe b.row.started a.row.started = true → timeLe a.row.ended b.row.ended = true) := by
  unfold rowLe
  cases h1 : timeLe a.row.started b.row.started <;> cases h2 : timeLe b.row.started a.row.started <;>
    simp

theorem rowLe_trans (a b c : CurveRow) (h1 : rowLe a b = true) (h2 : rowLe b c = true) :
    rowLe a c = true := by
  rw [rowLe_iff] at *
  refine ⟨timeLe_trans h1.1 h2.1, fun h => ?_⟩
  exact timeLe_trans (h1.2 (timeLe_trans h2.1 h)) (h2.2 (timeLe_trans h h1.1))

theorem rowLe_total (a b : CurveRow) : (rowLe a b || rowLe b a) = true := by
  rw [Bool.or_eq_true, rowLe_iff, rowLe_iff]
  rcases timeLe_total a.row.started b.row.started with h | h
  · by_cases h' : timeLe b.row.started a.row.started = true
    · rcases timeLe_total a.row.ended b.row.ended with g | g
      · exact Or.inl ⟨h, fun _ => g⟩
      · exact Or.inr ⟨h', fun _ => g⟩
    · exact Or.inl ⟨h, fun g => absurd g h'⟩
  · by_cases h' : timeLe a.row.started b.row.started = true
    · rcases timeLe_total a.row.ended b.row.ended with g | g
      · exact Or.inl ⟨h', fun _ => g⟩
      · exact Or.inr ⟨h, fun _ => g⟩
    · exact Or.inr ⟨h, fun g => absurd g h'⟩

/-- What is added to the epochs. -/
def shiftOf (es : List ℕ) : ℕ := if 0 ∈ es then 1 else 0

theorem shiftEpochs_eq (rows : List CsvRow) (lv : CsvRow → ℕ × ℕ) :
    shiftEpochs (rows.map fun r => ⟨(lv r).1, (lv r).2, r⟩) =
      rows.map fun r => ⟨(lv r).1, ((lv r).2 + shiftOf (rows.map fun r => (lv r).2) : ℕ), r⟩ := by
  unfold shiftEpochs
  have hmin : ((rows.map fun r => (⟨(lv r).1, (lv r).2, r⟩ : CurveRow)).map (·.epoch)).min? = some 0 ↔
      0 ∈ rows.map fun r => (lv r).2 := by
    rw [List.min?_eq_some_iff]
    constructor
    · rintro ⟨h, -⟩
      simp only [List.mem_map, exists_exists_and_eq_and] at h ⊢
      obtain ⟨r, hr, h0⟩ := h
      exact ⟨r, hr, by exact_mod_cast h0⟩
    · intro h
      simp only [List.mem_map, exists_exists_and_eq_and] at h ⊢
      obtain ⟨r, hr, h0⟩ := h
      refine ⟨⟨r, hr, by exact_mod_cast h0⟩, ?_⟩
      rintro b ⟨r', -, rfl⟩
      exact Int.natCast_nonneg _
  by_cases h : 0 ∈ rows.map fun r => (lv r).2
  · rw [if_pos (hmin.mpr h)]
    have e : shiftOf (rows.map fun r => (lv r).2) = 1 := if_pos h
    rw [e, List.map_map]
    exact List.map_congr_left fun r _ => by simp
  · rw [if_neg (fun e => h (hmin.mp e))]
    have e : shiftOf (rows.map fun r => (lv r).2) = 0 := if_neg h
    rw [e]
    exact List.map_congr_left fun r _ => by simp

theorem mapM_curveRow (rows : List CsvRow) (lv : CsvRow → ℕ × ℕ)
    (h : ∀ r ∈ rows, r.id = fmtId (lv r).1 (lv r).2) :
    rows.mapM curveRow = some (rows.map fun r => ⟨(lv r).1, (lv r).2, r⟩) := by
  induction rows with
  | nil => rfl
  | cons r rows ih =>
    rw [List.mapM_cons, curveRow_fmtId r _ _ (h r (by simp)), ih fun r hr => h r (by simp [hr])]
    rfl

/-- The prepared table: the rows in the order in which they were started. -/
theorem prepRows_eq (rows : List CsvRow) (lv : CsvRow → ℕ × ℕ) (hne : rows ≠ [])
    (h : ∀ r ∈ rows, r.id = fmtId (lv r).1 (lv r).2) :
    ∃ l : List CsvRow, l.Perm rows ∧
      l.Pairwise (fun a b => timeLe a.started b.started = true ∧
        (timeLe b.started a.started = true → timeLe a.ended b.ended = true)) ∧
      prepRows rows = some (l.map fun r =>
        ⟨(lv r).1, ((lv r).2 + shiftOf (rows.map fun r => (lv r).2) : ℕ), r⟩) := by
  set R : CsvRow → CurveRow := fun r =>
    ⟨(lv r).1, ((lv r).2 + shiftOf (rows.map fun r => (lv r).2) : ℕ), r⟩ with hR
  have hp := List.mergeSort_perm (rows.map R) rowLe
  have hs := List.pairwise_mergeSort (le := rowLe) rowLe_trans rowLe_total (rows.map R)
  set S := (rows.map R).mergeSort rowLe with hS
  have hmem : ∀ x ∈ S, R x.row = x := by
    intro x hx
    rw [hp.mem_iff, List.mem_map] at hx
    obtain ⟨r, -, rfl⟩ := hx
    rfl
  refine ⟨S.map (·.row), ?_, ?_, ?_⟩
  · have := hp.map (·.row)
    rw [List.map_map] at this
    have e : ((·.row) ∘ R) = id := by funext r; rfl
    rwa [e, List.map_id] at this
  · rw [List.pairwise_map]
    exact hs.imp fun hab => (rowLe_iff _ _).mp hab
  · unfold prepRows
    rw [if_neg hne, mapM_curveRow rows lv h, Option.map_some, shiftEpochs_eq, List.map_map]
    congr 1
    rw [← hR, ← hS]
    conv_lhs => rw [← List.map_id S]
    exact List.map_congr_left fun x hx => (hmem x hx).symm

theorem mem_configsOf (l : List CurveRow) (c : ℤ) : c ∈ configsOf l ↔ ∃ r ∈ l, r.config = c := by
  simp [configsOf]

theorem nodup_configsOf (l : List CurveRow) : (configsOf l).Nodup := by
  unfold configsOf
  rw [List.nodup_reverse]
  exact List.nodup_dedup _

theorem mem_groupOf (l : List CurveRow) (c : ℤ) (p : CurveRow × ℕ) :
    p ∈ groupOf l c ↔ l[p.2]? = some p.1 ∧ p.1.config = c := by
  simp [groupOf, List.mem_zipIdx_iff_getElem?]

theorem groupOf_colours (l : List CurveRow) (c : ℤ) :
    ((groupOf l c).map (·.2)).Pairwise (· < ·) := by
  unfold groupOf
  have h : (l.zipIdx.map (·.2)).Pairwise (· < ·) := by
    rw [List.zipIdx_map_snd]
    exact List.pairwise_lt_range'
  exact h.sublist (List.filter_sublist.map _)

theorem groupOf_length (l : List CurveRow) (c : ℤ) :
    (groupOf l c).length = l.countP fun r => r.config = c := by
  unfold groupOf
  rw [← List.countP_eq_length_filter]
  have : l.countP (fun r => decide (r.config = c)) =
      (l.zipIdx.map Prod.fst).countP fun r => decide (r.config = c) := by rw [List.zipIdx_map_fst]
  rw [this, List.countP_map]
  rfl

theorem drawGroup_flat (idx : ℕ) (g : List (CurveRow × ℕ)) :
    (drawGroup true idx g).flat = g.map fun p => ((p.1.epoch : ℚ), p.1.row.loss) := by
  unfold drawGroup
  split <;> rfl

theorem drawGroup_colours (idx : ℕ) (g : List (CurveRow × ℕ)) :
    (drawGroup true idx g).colours = g.map (·.2) := by
  unfold drawGroup
  split <;> rfl

theorem drawGroup_line (sc : Bool) (idx : ℕ) (g : List (CurveRow × ℕ)) :
    (drawGroup sc idx g).line = decide (2 ≤ g.length) := by
  unfold drawGroup
  split
  · split <;> simp_all
  · simp; omega

theorem idxOf_lt_of_mem_take {l : List ℤ} {c : ℤ} {j : ℕ} (h : l[j]? = some c) :
    l.idxOf c ≤ j := by
  induction l generalizing j with
  | nil => simp at h
  | cons a l ih =>
    rw [List.idxOf_cons]
    cases j with
    | zero =>
      simp only [List.getElem?_cons_zero, Option.some.injEq] at h
      simp [h]
    | succ j =>
      rw [List.getElem?_cons_succ] at h
      cases a == c
      · exact Nat.succ_le_succ (ih h)
      · simp

theorem dedup_order (l : List ℤ) :
    l.reverse.dedup.reverse.Pairwise fun a b => l.idxOf a < l.idxOf b := by
  induction l using List.reverseRecOn with
  | nil => simp
  | append_singleton l a ih =>
    have keep : l.reverse.dedup.reverse.Pairwise
        fun x y => (l ++ [a]).idxOf x < (l ++ [a]).idxOf y := by
      refine ih.imp_of_mem fun {x y} hx hy h => ?_
      rw [List.mem_reverse, List.mem_dedup, List.mem_reverse] at hx hy
      rwa [List.idxOf_append_of_mem hx, List.idxOf_append_of_mem hy]
    rw [List.reverse_append, List.reverse_singleton, List.singleton_append]
    by_cases ha : a ∈ l
    · rw [List.dedup_cons_of_mem (by simpa using ha)]
      exact keep
    · rw [List.dedup_cons_of_notMem (by simpa using ha), List.reverse_cons, List.pairwise_append]
      refine ⟨keep, by simp, fun x hx y hy => ?_⟩
      rw [List.mem_singleton] at hy
      subst hy
      rw [List.mem_reverse, List.mem_dedup, List.mem_reverse] at hx
      rw [List.idxOf_append_of_mem hx, List.idxOf_append_of_notMem ha]
      have := List.idxOf_lt_length_of_mem hx
      omega

theorem drawGroup_deep (sc : Bool) (idx : ℕ) (g : List (CurveRow × ℕ))
    (h : (drawGroup sc idx g).line = true) :
    (drawGroup sc idx g).deep = (drawGroup sc idx g).flat.map fun p => (p.1, idx, p.2) := by
  unfold drawGroup at *
  split at h
  · split at h <;> simp at h
  · rename_i hg
    simp only [if_neg hg, List.map_map]
    rfl

theorem configsOf_perm (l rows : List CsvRow) (lv : CsvRow → ℕ × ℕ) (hp : l.Perm rows) (k : ℕ) :
    (configsOf (l.map fun r => ⟨(lv r).1, ((lv r).2 + k : ℕ), r⟩)).Perm
      ((rows.map fun r => (lv r).1).dedup.map (Nat.cast : ℕ → ℤ)) := by
  rw [List.perm_ext_iff_of_nodup (nodup_configsOf _)
    ((List.nodup_dedup _).map (fun a b h => by exact_mod_cast h))]
  intro c
  simp [mem_configsOf, hp.mem_iff]

end Neps.Plot
