import Verif.Ifbo.Model
import Mathlib.Tactic.Linarith

/-!
# What the acquisition step of ifBO chooses
-/

namespace Verif.Ifbo

variable {α : Type}

theorem argmax_spec (score : Row α → ℝ) (l : List (Row α)) (r : Row α)
    (h : argmax score l = some r) : r ∈ l ∧ ∀ c ∈ l, score c ≤ score r := by
  cases l with
  | nil => cases h
  | cons a l =>
    simp only [argmax, Option.some.injEq] at h
    subst h
    have key : ∀ (l : List (Row α)) (a : Row α),
        let b := l.foldl (fun b c => if score b < score c then c else b) a
        (b = a ∨ b ∈ l) ∧ score a ≤ score b ∧ ∀ c ∈ l, score c ≤ score b := by
      intro l
      induction l with
      | nil => intro a; simp
      | cons c l ih =>
        intro a
        simp only [List.foldl_cons]
        obtain ⟨h1, h2, h3⟩ := ih (if score a < score c then c else a)
        by_cases hac : score a < score c
        · rw [if_pos hac] at h1 h2 h3 ⊢
          refine ⟨Or.inr ?_, by linarith, ?_⟩
          · rcases h1 with h1 | h1
            · rw [h1]; exact List.mem_cons_self
            · exact List.mem_cons_of_mem _ h1
          · intro d hd
            rcases List.mem_cons.mp hd with rfl | hd
            · exact h2
            · exact h3 d hd
        · rw [if_neg hac] at h1 h2 h3 ⊢
          refine ⟨?_, h2, ?_⟩
          · rcases h1 with h1 | h1
            · exact Or.inl h1
            · exact Or.inr (List.mem_cons_of_mem _ h1)
          · intro d hd
            rcases List.mem_cons.mp hd with rfl | hd
            · exact (not_lt.mp hac).trans h2
            · exact h3 d hd
    obtain ⟨h1, h2, h3⟩ := key l a
    refine ⟨?_, ?_⟩
    · rcases h1 with h1 | h1
      · rw [h1]; exact List.mem_cons_self
      · exact List.mem_cons_of_mem _ h1
    · intro c hc
      rcases List.mem_cons.mp hc with rfl | hc
      · exact h2
      · exact h3 c hc

theorem argmax_none (score : Row α → ℝ) (l : List (Row α)) : argmax score l = none ↔ l = [] := by
  cases l <;> simp [argmax]

theorem lastOfGroups_sub (l : List (Row α)) : ∀ r ∈ lastOfGroups l, r ∈ l := by
  induction l with
  | nil => simp [lastOfGroups]
  | cons a l ih =>
    cases l with
    | nil => simp [lastOfGroups]
    | cons b l =>
      intro r hr
      simp only [lastOfGroups] at hr
      split at hr
      · exact List.mem_cons_of_mem _ (ih r hr)
      · rcases List.mem_cons.mp hr with rfl | hr
        · exact List.mem_cons_self
        · exact List.mem_cons_of_mem _ (ih r hr)

/-- On a list sorted by configuration and budget, the last row of each group has the highest budget
of its configuration, and every configuration has exactly one. -/
theorem lastOfGroups_spec (l : List (Row α))
    (hs : l.Pairwise fun a b => a.id < b.id ∨ a.id = b.id ∧ a.budget ≤ b.budget) :
    (∀ r ∈ lastOfGroups l, ∀ c ∈ l, c.id = r.id → c.budget ≤ r.budget) ∧
    (∀ c ∈ l, ∃ r ∈ lastOfGroups l, r.id = c.id) ∧
    (lastOfGroups l).Pairwise (fun a b => a.id < b.id) := by
  induction l with
  | nil => simp [lastOfGroups]
  | cons a l ih =>
    cases l with
    | nil => simp [lastOfGroups]
    | cons b l =>
      rw [List.pairwise_cons] at hs
      obtain ⟨h1, h2, h3⟩ := ih hs.2
      simp only [lastOfGroups]
      split
      · rename_i hab
        refine ⟨?_, ?_, h3⟩
        · intro r hr c hc hcr
          rcases List.mem_cons.mp hc with rfl | hc
          · have hrm := lastOfGroups_sub _ r hr
            rcases hs.1 r hrm with h | h
            · omega
            · exact h.2
          · exact h1 r hr c hc hcr
        · intro c hc
          rcases List.mem_cons.mp hc with rfl | hc
          · obtain ⟨r, hr, hrb⟩ := h2 b List.mem_cons_self
            exact ⟨r, hr, hrb.trans hab.symm⟩
          · exact h2 c hc
      · rename_i hab
        have hlt : ∀ c ∈ b :: l, a.id < c.id := by
          intro c hc
          have hb : a.id < b.id := by
            rcases hs.1 b List.mem_cons_self with h | h
            · exact h
            · exact absurd h.1 hab
          rcases List.mem_cons.mp hc with rfl | hc'
          · exact hb
          · rcases (List.pairwise_cons.mp hs.2).1 c hc' with h | h <;> omega
        refine ⟨?_, ?_, ?_⟩
        · intro r hr c hc hcr
          rcases List.mem_cons.mp hr with rfl | hr'
          · rcases List.mem_cons.mp hc with rfl | hc
            · exact le_rfl
            · have := hlt c hc; omega
          · rcases List.mem_cons.mp hc with rfl | hc
            · have := hlt r (lastOfGroups_sub _ r hr'); omega
            · exact h1 r hr' c hc hcr
        · intro c hc
          rcases List.mem_cons.mp hc with rfl | hc
          · exact ⟨c, List.mem_cons_self, rfl⟩
          · obtain ⟨r, hr, hrc⟩ := h2 c hc
            exact ⟨r, List.mem_cons_of_mem _ hr, hrc⟩
        · rw [List.pairwise_cons]
          exact ⟨fun r hr => hlt r (lastOfGroups_sub _ r hr), h3⟩

theorem sorted_rows (rows : List (Row α)) :
    (rows.mergeSort rowLe).Pairwise fun a b => a.id < b.id ∨ a.id = b.id ∧ a.budget ≤ b.budget := by
  have h := List.pairwise_mergeSort (le := rowLe (α := α)) ?_ ?_ rows
  · exact h.imp (fun {a b} hab => by simpa [rowLe] using hab)
  · intro a b c hab hbc
    simp only [rowLe, decide_eq_true_eq] at *
    rcases hab with h1 | ⟨h1, h1'⟩ <;> rcases hbc with h2 | ⟨h2, h2'⟩
    · left; omega
    · left; omega
    · left; omega
    · right; exact ⟨h1.trans h2, h1'.trans h2'⟩
  · intro a b
    simp only [rowLe, Bool.or_eq_true, decide_eq_true_eq]
    rcases lt_trichotomy a.id b.id with h | h | h
    · exact Or.inl (Or.inl h)
    · rcases le_total a.budget b.budget with h' | h'
      · exact Or.inl (Or.inr ⟨h, h'⟩)
      · exact Or.inr (Or.inr ⟨h.symm, h'⟩)
    · exact Or.inr (Or.inl h)

theorem keepHighest_spec (rows : List (Row α)) :
    (∀ r ∈ keepHighest rows, r ∈ rows) ∧
    (∀ r ∈ keepHighest rows, ∀ c ∈ rows, c.id = r.id → c.budget ≤ r.budget) ∧
    (∀ c ∈ rows, ∃ r ∈ keepHighest rows, r.id = c.id) ∧
    (keepHighest rows).Pairwise (fun a b => a.id < b.id) := by
  obtain ⟨h1, h2, h3⟩ := lastOfGroups_spec _ (sorted_rows rows)
  refine ⟨?_, ?_, ?_, h3⟩
  · intro r hr
    have := lastOfGroups_sub _ r hr
    simpa using this
  · intro r hr c hc
    exact h1 r hr c (by simpa using hc)
  · intro c hc
    exact h2 c (by simpa using hc)

/-- The candidates among the evaluated configurations: the highest evaluation of each
configuration, unless it is complete. -/
theorem existing_spec (rows : List (Row α)) (u : ℝ) (r : Row α)
    (h : r ∈ (keepHighest rows).filter fun r => decide (r.budget < u)) :
    r ∈ rows ∧ r.budget < u ∧ ∀ c ∈ rows, c.id = r.id → c.budget ≤ r.budget := by
  rw [List.mem_filter, decide_eq_true_eq] at h
  obtain ⟨h1, h2, -, -⟩ := keepHighest_spec rows
  exact ⟨h1 r h.1, h.2, h2 r h.1⟩

theorem better_spec (score : Row α → ℝ) (best : Option (Row α)) (r b : Row α)
    (h : better score best r = some b) :
    (best = some b ∨ (b = r ∧ ∀ a, best = some a → score a < score r)) ∧ score r ≤ score b ∧
      ∀ a, best = some a → score a ≤ score b := by
  cases best with
  | none =>
    simp only [better, Option.some.injEq] at h
    subst h
    exact ⟨Or.inr ⟨rfl, by simp⟩, le_rfl, by simp⟩
  | some a =>
    simp only [better] at h
    split at h
    · rename_i hlt
      simp only [Option.some.injEq] at h
      subst h
      exact ⟨Or.inr ⟨rfl, by simpa using hlt⟩, le_rfl, by simpa using hlt.le⟩
    · rename_i hlt
      simp only [Option.some.injEq] at h
      subst h
      exact ⟨Or.inl rfl, not_lt.mp hlt, by simp⟩

theorem better_some (score : Row α → ℝ) (best : Option (Row α)) (r : Row α) :
    ∃ b, better score best r = some b := by
  cases best with
  | none => exact ⟨r, rfl⟩
  | some a =>
    simp only [better]
    split
    · exact ⟨_, rfl⟩
    · exact ⟨_, rfl⟩

/-- The rows of new configurations at the smallest budget. -/
def newRows (minBudget : ℝ) (l : List α) : List (Row α) := l.map fun x => ⟨0, minBudget, x⟩

/-- One sampler: the best of the previous best, the samples and the samples around the best
sample. -/
theorem tryBatch_spec (score : Row α → ℝ) (m : ℝ) (best : Option (Row α)) (bt : Batch α)
    (res : Option (Row α)) (h : tryBatch score m best bt = some res) :
    ∃ b r, res = some b ∧ argmax score (newRows m bt.samples) = some r ∧
      ((best = some b) ∨ (b ∈ newRows m bt.samples ∨ b ∈ newRows m (bt.around r.x)) ∧
        ∀ a, best = some a → score a < score b) ∧
      (∀ c ∈ newRows m bt.samples, score c ≤ score b) ∧
      (∀ c ∈ newRows m (bt.around r.x), score c ≤ score b) ∧
      ∀ a, best = some a → score a ≤ score b := by
  unfold tryBatch at h
  cases hr : argmax score (newRows m bt.samples) with
  | none => unfold newRows at hr; rw [hr] at h; cases h
  | some r =>
    have hr0 := hr
    unfold newRows at hr
    rw [hr] at h
    simp only [Option.bind_eq_bind, Option.bind_some] at h
    cases hr' : argmax score (newRows m (bt.around r.x)) with
    | none => unfold newRows at hr'; rw [hr'] at h; cases h
    | some r' =>
      have hr0' := hr'
      unfold newRows at hr'
      rw [hr'] at h
      simp only [Option.bind_some, Option.pure_def, Option.some.injEq] at h
      obtain ⟨b, hb⟩ := better_some score (better score best r) r'
      obtain ⟨b1, hb1⟩ := better_some score best r
      refine ⟨b, r, by rw [← h, hb], rfl, ?_⟩
      obtain ⟨g1, g2, g3⟩ := better_spec score _ _ _ hb
      obtain ⟨f1, f2, f3⟩ := better_spec score _ _ _ hb1
      obtain ⟨m1, m2⟩ := argmax_spec score _ _ hr0
      obtain ⟨m3, m4⟩ := argmax_spec score _ _ hr0'
      have h1b := g3 b1 hb1
      refine ⟨?_, fun c hc => (m2 c hc).trans (f2.trans h1b), fun c hc => (m4 c hc).trans g2,
        fun a ha => (f3 a ha).trans h1b⟩
      rcases g1 with g1 | ⟨rfl, g1⟩
      · rw [hb1] at g1
        cases g1
        rcases f1 with f1 | ⟨rfl, f1⟩
        · exact Or.inl f1
        · exact Or.inr ⟨Or.inl m1, f1⟩
      · exact Or.inr ⟨Or.inr m3, fun a ha => lt_of_le_of_lt (f3 a ha) (g1 b1 hb1)⟩

/-- All samplers. -/
theorem batches_spec (score : Row α → ℝ) (m : ℝ) (bts : List (Batch α)) (best : Option (Row α))
    (res : Option (Row α)) (h : bts.foldlM (tryBatch score m) best = some res) :
    (∀ b, res = some b →
      ((best = some b) ∨ (∃ bt ∈ bts, b ∈ newRows m bt.samples ∨
        ∃ r, argmax score (newRows m bt.samples) = some r ∧ b ∈ newRows m (bt.around r.x)) ∧
        ∀ a, best = some a → score a < score b) ∧
      (∀ bt ∈ bts, ∀ c ∈ newRows m bt.samples, score c ≤ score b) ∧
      (∀ bt ∈ bts, ∀ r, argmax score (newRows m bt.samples) = some r →
        ∀ c ∈ newRows m (bt.around r.x), score c ≤ score b) ∧
      ∀ a, best = some a → score a ≤ score b) ∧
    (res = none → best = none ∧ bts = []) := by
  induction bts generalizing best with
  | nil =>
    simp only [List.foldlM_nil, Option.pure_def, Option.some.injEq] at h
    subst h
    refine ⟨fun b hb => ⟨Or.inl hb, by simp, by simp, ?_⟩, fun hb => ⟨hb, rfl⟩⟩
    intro a ha
    rw [hb] at ha
    cases ha
    exact le_rfl
  | cons bt bts ih =>
    rw [List.foldlM_cons] at h
    cases ht : tryBatch score m best bt with
    | none => rw [ht] at h; cases h
    | some res1 =>
      rw [ht] at h
      simp only [Option.bind_eq_bind, Option.bind_some] at h
      obtain ⟨b1, r1, rfl, hr1, g1, g2, g3, g4⟩ := tryBatch_spec score m best bt res1 ht
      obtain ⟨k1, k2⟩ := ih (some b1) h
      refine ⟨?_, fun hn => absurd (k2 hn).1 (by simp)⟩
      intro b hb
      obtain ⟨e1, e2, e3, e4⟩ := k1 b hb
      have hle := e4 b1 rfl
      refine ⟨?_, ?_, ?_, fun a ha => (g4 a ha).trans hle⟩
      · rcases e1 with e1 | ⟨⟨bt', hbt', hmem⟩, e1⟩
        · cases e1
          rcases g1 with g1 | ⟨g1, g1'⟩
          · exact Or.inl g1
          · refine Or.inr ⟨⟨bt, List.mem_cons_self, ?_⟩, g1'⟩
            rcases g1 with g1 | g1
            · exact Or.inl g1
            · exact Or.inr ⟨r1, hr1, g1⟩
        · refine Or.inr ⟨⟨bt', List.mem_cons_of_mem _ hbt', hmem⟩, fun a ha => ?_⟩
          exact lt_of_le_of_lt (g4 a ha) (e1 b1 rfl)
      · intro bt' hbt' c hc
        rcases List.mem_cons.mp hbt' with rfl | hbt'
        · exact (g2 c hc).trans hle
        · exact e2 bt' hbt' c hc
      · intro bt' hbt' r hr c hc
        rcases List.mem_cons.mp hbt' with rfl | hbt'
        · rw [hr1] at hr
          cases hr
          exact (g3 c hc).trans hle
        · exact e3 bt' hbt' r hr c hc

/-- Where the chosen row comes from. -/
theorem acquire_cases {score : Row α → ℝ} {bd : Space.Domain} {rows : List (Row α)}
    {bts : List (Batch α)} {row : Row α} (h : acquire score bd rows bts = some (some row)) :
    (row ∈ (keepHighest rows).filter fun r => decide (r.budget < bd.upper)) ∨
      (row.id = 0 ∧ row.budget = bd.lower) := by
  obtain ⟨hspec, -⟩ := batches_spec score bd.lower bts _ _ h
  obtain ⟨h1, -⟩ := hspec row rfl
  rcases h1 with h1 | ⟨⟨bt, -, h1⟩, -⟩
  · exact Or.inl (argmax_spec score _ _ h1).1
  · right
    rcases h1 with h1 | ⟨r, -, h1⟩ <;>
    · simp only [newRows, List.mem_map] at h1
      obtain ⟨x, -, rfl⟩ := h1
      exact ⟨rfl, rfl⟩

end Verif.Ifbo
