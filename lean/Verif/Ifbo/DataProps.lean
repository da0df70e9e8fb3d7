import Verif.Ifbo.History

/-!
# Property C44: the losses given to the surrogate of ifBO
-/

namespace Verif.Ifbo

open Verif.Space Verif.Space.Domain

variable {α : Type}

theorem foldNan_none (f : ℝ → ℝ → ℝ) (ys : List (Option ℝ)) :
    ys.foldl (liftNan f) none = none := by
  induction ys with
  | nil => rfl
  | cons y ys ih => exact ih

theorem foldNan_nan (f : ℝ → ℝ → ℝ) {ys : List (Option ℝ)} (y : Option ℝ) (h : none ∈ y :: ys) :
    ys.foldl (liftNan f) y = none := by
  induction ys generalizing y with
  | nil =>
    simp only [List.mem_cons, List.not_mem_nil, or_false] at h
    exact h.symm
  | cons z ys ih =>
    rw [List.foldl_cons]
    cases y with
    | none => exact foldNan_none f ys
    | some y =>
      cases z with
      | none => exact foldNan_none f ys
      | some z =>
        apply ih
        have h' : none ∈ ys := by simpa using h
        exact List.mem_cons_of_mem _ h'

theorem foldMax_some (zs : List ℝ) (y : ℝ) :
    ∃ m, (zs.map some).foldl (liftNan max) (some y) = some m ∧
      m ∈ y :: zs ∧ ∀ z ∈ y :: zs, z ≤ m := by
  induction zs generalizing y with
  | nil => exact ⟨y, rfl, by simp, by simp⟩
  | cons z zs ih =>
    obtain ⟨m, h1, h2, h3⟩ := ih (max y z)
    refine ⟨m, h1, ?_, ?_⟩
    · rcases List.mem_cons.mp h2 with rfl | h2
      · rcases max_choice y z with h | h <;> rw [h] <;> simp
      · simp [h2]
    · intro w hw
      have hm := h3 (max y z) List.mem_cons_self
      rcases List.mem_cons.mp hw with rfl | hw
      · exact (le_max_left _ _).trans hm
      · rcases List.mem_cons.mp hw with rfl | hw
        · exact (le_max_right _ _).trans hm
        · exact h3 w (List.mem_cons_of_mem _ hw)

theorem foldMin_some (zs : List ℝ) (y : ℝ) :
    ∃ m, (zs.map some).foldl (liftNan min) (some y) = some m ∧
      m ∈ y :: zs ∧ ∀ z ∈ y :: zs, m ≤ z := by
  induction zs generalizing y with
  | nil => exact ⟨y, rfl, by simp, by simp⟩
  | cons z zs ih =>
    obtain ⟨m, h1, h2, h3⟩ := ih (min y z)
    refine ⟨m, h1, ?_, ?_⟩
    · rcases List.mem_cons.mp h2 with rfl | h2
      · rcases min_choice y z with h | h <;> rw [h] <;> simp
      · simp [h2]
    · intro w hw
      have hm := h3 (min y z) List.mem_cons_self
      rcases List.mem_cons.mp hw with rfl | hw
      · exact hm.trans (min_le_left _ _)
      · rcases List.mem_cons.mp hw with rfl | hw
        · exact hm.trans (min_le_right _ _)
        · exact h3 w (List.mem_cons_of_mem _ hw)

/-- With a NaN among the losses the check passes. -/
theorem outOfRange_nan {ys : List (Option ℝ)} (h : none ∈ ys) : outOfRange ys = some false := by
  cases ys with
  | nil => cases h
  | cons y ys =>
    simp [outOfRange, tensorMax, tensorMin, foldNan_nan _ y h]

/-- Without NaN the check finds exactly the losses out of range. -/
theorem outOfRange_some (zs : List ℝ) (y : ℝ) :
    outOfRange ((y :: zs).map some) = some (decide (∃ z ∈ y :: zs, z < 0 ∨ 1 < z)) := by
  obtain ⟨a, ha, ha1, ha2⟩ := foldMax_some zs y
  obtain ⟨b, hb, hb1, hb2⟩ := foldMin_some zs y
  have hiff : (1 < a ∨ b < 0) ↔ ∃ z ∈ y :: zs, z < 0 ∨ 1 < z := by
    constructor
    · rintro (h | h)
      · exact ⟨a, ha1, Or.inr h⟩
      · exact ⟨b, hb1, Or.inl h⟩
    · rintro ⟨z, hz, h | h⟩
      · exact Or.inr (lt_of_le_of_lt (hb2 z hz) h)
      · exact Or.inl (lt_of_lt_of_le h (ha2 z hz))
  unfold outOfRange
  simp only [List.map_cons, tensorMax, tensorMin, ha, hb, Option.bind_eq_bind, Option.bind_some,
    Option.pure_def, Option.any_some, Option.some.injEq]
  rw [← Bool.decide_or]
  exact decide_eq_decide.mpr hiff

/-- The losses of finished trials are numbers. -/
theorem done_map {ts : List (Tr α)} (h : ∀ t ∈ ts, Done t) :
    ∃ zs : List ℝ, ts.map (fun t => minimizeY t.report) = zs.map some := by
  induction ts with
  | nil => exact ⟨[], rfl⟩
  | cons t ts ih =>
    obtain ⟨zs, hz⟩ := ih (fun u hu => h u (List.mem_cons_of_mem _ hu))
    obtain ⟨y, hy⟩ := h t List.mem_cons_self
    exact ⟨y :: zs, by simp [hy, hz]⟩

/-- The check on finished trials. -/
theorem outOfRange_done {ts : List (Tr α)} (hne : ts ≠ []) (h : ∀ t ∈ ts, Done t) :
    ∃ b, outOfRange (ts.map fun t => minimizeY t.report) = some b ∧
      (b = true ↔ ∃ t ∈ ts, ∃ y, t.report = .loss (some y) ∧ (y < 0 ∨ 1 < y)) := by
  obtain ⟨zs, hz⟩ := done_map h
  cases zs with
  | nil =>
    simp at hz
    exact absurd hz hne
  | cons y zs =>
    rw [hz, outOfRange_some]
    refine ⟨_, rfl, ?_⟩
    rw [decide_eq_true_eq]
    have hmem : ∀ z, z ∈ y :: zs ↔ ∃ t ∈ ts, minimizeY t.report = some z := by
      intro z
      have : some z ∈ (y :: zs).map some ↔ z ∈ y :: zs := by simp
      rw [← this, ← hz, List.mem_map]
    constructor
    · rintro ⟨z, hz', h1⟩
      obtain ⟨t, ht, hy⟩ := (hmem z).mp hz'
      refine ⟨t, ht, z, ?_, h1⟩
      cases hr : t.report with
      | pending => rw [hr] at hy; cases hy
      | crashed =>
        rw [hr] at hy
        simp only [minimizeY, Option.some.injEq] at hy
        subst hy
        rcases h1 with h1 | h1 <;> linarith
      | loss w => rw [hr] at hy; simp only [minimizeY] at hy; rw [hy]
    · rintro ⟨t, ht, z, hr, h1⟩
      exact ⟨z, (hmem z).mpr ⟨t, ht, by rw [hr]; rfl⟩, h1⟩

/-! ## The data -/

/-- C44, the data: every trial gives one row with its configuration, and its score is one minus
its loss; a trial without report (or with a NaN loss) has no score. -/
theorem C44_data (s : Optimizer α) (ts : List (Tr α)) (rows : List (Row α × Option ℝ))
    (h : encode s ts = some rows) :
    List.Forall₂ (fun (t : Tr α) (r : Row α × Option ℝ) =>
      r.1.id = t.cfg + 1 ∧ r.1.x = t.config ∧ s.budgetDom.cast t.fid s.fidDom = some r.1.budget ∧
      (t.report = .pending → r.2 = none) ∧
      (∀ y, t.report = .loss (some y) → r.2 = some (1 - y)) ∧
      (t.report = .loss none → r.2 = none)) ts rows := by
  unfold encode at h
  cases hm : ts.mapM (encodeTrial s) with
  | none => rw [hm] at h; cases h
  | some rs =>
    rw [hm] at h
    simp only [Option.bind_eq_bind, Option.bind_some] at h
    have hrs : rs = rows := by
      cases ho : outOfRange (ts.map fun t => minimizeY t.report) with
      | none => rw [ho] at h; cases h
      | some b =>
        rw [ho] at h
        cases b with
        | true => cases h
        | false => simpa using h
    subst hrs
    clear h
    induction ts generalizing rs with
    | nil =>
      simp only [List.mapM_nil, Option.pure_def, Option.some.injEq] at hm
      subst hm
      exact List.Forall₂.nil
    | cons t ts ih =>
      rw [List.mapM_cons] at hm
      cases he : encodeTrial s t with
      | none => rw [he] at hm; cases hm
      | some r =>
        rw [he] at hm
        cases hm' : ts.mapM (encodeTrial s) with
        | none => rw [hm'] at hm; cases hm
        | some rs' =>
          rw [hm'] at hm
          simp only [Option.bind_eq_bind, Option.bind_some, Option.pure_def,
            Option.some.injEq] at hm
          subst hm
          refine List.Forall₂.cons ?_ (ih rs' hm')
          unfold encodeTrial at he
          cases hc : s.budgetDom.cast t.fid s.fidDom with
          | none => rw [hc] at he; cases he
          | some bb =>
            rw [hc] at he
            simp only [Option.bind_eq_bind, Option.bind_some, Option.pure_def,
              Option.some.injEq] at he
            subst he
            refine ⟨rfl, rfl, rfl, ?_, ?_, ?_⟩
            · intro hr; rw [hr]; rfl
            · intro y hr; rw [hr]; rfl
            · intro hr; rw [hr]; rfl

/-- C44, losses out of range: as long as every trial has a result, data with a loss outside of
[0, 1] is rejected, and data without one is not.  Missing: trials without a result
(`C44_range_fails`). -/
theorem C44_range_partial (s : Optimizer α) (ts : List (Tr α)) (hne : ts ≠ [])
    (hdone : ∀ t ∈ ts, Done t)
    (hcast : ∀ t ∈ ts, ∃ b, s.budgetDom.cast t.fid s.fidDom = some b) :
    (∃ rows, encode s ts = some rows) ↔
      ∀ t ∈ ts, ∀ y, t.report = .loss (some y) → 0 ≤ y ∧ y ≤ 1 := by
  obtain ⟨bad, ho, hbad⟩ := outOfRange_done hne hdone
  have hm : ∃ rs, ts.mapM (encodeTrial s) = some rs := by
    clear ho hbad hdone hne
    induction ts with
    | nil => exact ⟨[], rfl⟩
    | cons t ts ih =>
      obtain ⟨rs, hrs⟩ := ih (fun u hu => hcast u (List.mem_cons_of_mem _ hu))
      obtain ⟨b, hb⟩ := hcast t List.mem_cons_self
      rw [List.mapM_cons, hrs]
      simp [encodeTrial, hb]
  obtain ⟨rs, hrs⟩ := hm
  unfold encode
  rw [hrs, ho]
  simp only [Option.bind_eq_bind, Option.bind_some, Option.pure_def]
  cases bad with
  | true =>
    obtain ⟨t, ht, y, hr, hy⟩ := hbad.mp rfl
    constructor
    · rintro ⟨rows, h⟩; simp at h
    · intro h
      have := h t ht y hr
      rcases hy with hy | hy <;> linarith
  | false =>
    constructor
    · intro _ t ht y hr
      by_contra hcon
      have : false = true := hbad.mpr ⟨t, ht, y, hr, by
        by_contra h
        push Not at h
        exact hcon h⟩
      cases this
    · intro _; exact ⟨rs, by simp⟩

/-- C44 fails: as soon as one trial has no result, no loss is rejected, however large. -/
theorem C44_range_fails (s : Optimizer α) (ts : List (Tr α)) (hpend : ∃ t ∈ ts, ¬ Done t)
    (hcast : ∀ t ∈ ts, ∃ b, s.budgetDom.cast t.fid s.fidDom = some b) :
    ∃ rows, encode s ts = some rows := by
  obtain ⟨t, ht, hnd⟩ := hpend
  have hnone : minimizeY t.report = none := by
    cases h : minimizeY t.report with
    | none => rfl
    | some y => exact absurd ⟨y, h⟩ hnd
  have hm : ∃ rs, ts.mapM (encodeTrial s) = some rs := by
    clear ht
    induction ts with
    | nil => exact ⟨[], rfl⟩
    | cons t ts ih =>
      obtain ⟨rs, hrs⟩ := ih (fun u hu => hcast u (List.mem_cons_of_mem _ hu))
      obtain ⟨b, hb⟩ := hcast t List.mem_cons_self
      rw [List.mapM_cons, hrs]
      simp [encodeTrial, hb]
  obtain ⟨rs, hrs⟩ := hm
  unfold encode
  rw [hrs, outOfRange_nan (List.mem_map.mpr ⟨t, ht, hnone⟩)]
  exact ⟨rs, rfl⟩

/-- C44 fails: a crashed trial gets the highest possible score, strictly above every trial that
reported a loss in (0, 1]. -/
theorem C44_crash_fails (s : Optimizer α) (t : Tr α) (r : Row α × Option ℝ)
    (h : encodeTrial s t = some r) (hc : t.report = .crashed) :
    r.2 = some 1 ∧ ∀ t' r' y, encodeTrial s t' = some r' → t'.report = .loss (some y) → 0 < y →
      ∃ a, r'.2 = some a ∧ a < 1 := by
  unfold encodeTrial at h
  cases hb : s.budgetDom.cast t.fid s.fidDom with
  | none => rw [hb] at h; cases h
  | some b =>
    rw [hb] at h
    simp only [Option.bind_eq_bind, Option.bind_some, Option.pure_def, Option.some.injEq] at h
    subst h
    refine ⟨by simp [hc, minimizeY], ?_⟩
    intro t' r' y h' hr' hy
    unfold encodeTrial at h'
    cases hb' : s.budgetDom.cast t'.fid s.fidDom with
    | none => rw [hb'] at h'; cases h'
    | some b' =>
      rw [hb'] at h'
      simp only [Option.bind_eq_bind, Option.bind_some, Option.pure_def, Option.some.injEq] at h'
      subst h'
      exact ⟨1 - y, by simp [hr', minimizeY], by linarith⟩

/-- C44, the threshold of improvement: it lies strictly between the best score and 1 while the
best score is below 1; once a crashed trial is among the data the best score is 1, and so is the
threshold: no candidate can exceed it. -/
theorem C44_threshold (c : ℝ) (h0 : 0 < c) (h1 : c < 1) (zs : List ℝ) (m : ℝ)
    (hz : ∀ z ∈ zs, z ≤ 1) (hm : tensorMax (zs.map some) = some (some m)) :
    (∀ z ∈ zs, z ≤ m) ∧ (m < 1 → m < threshold c m ∧ threshold c m < 1) ∧
      (1 ∈ zs → m = 1 ∧ threshold c m = 1) := by
  cases zs with
  | nil => cases hm
  | cons y zs =>
    obtain ⟨m', h2, h3, h4⟩ := foldMax_some zs y
    simp only [List.map_cons, tensorMax, h2, Option.some.injEq] at hm
    subst hm
    refine ⟨h4, ?_, ?_⟩
    · intro hlt
      unfold threshold
      constructor <;> nlinarith
    · intro hone
      have : m' = 1 := le_antisymm (hz m' h3) (h4 1 hone)
      subst this
      exact ⟨rfl, by unfold threshold; ring⟩

/-- The theorems apply: three finished trials, one crashed, and the same with a pending trial and a
loss of 7. -/
example : ∃ s : Optimizer Unit,
    (∃ rows, encode s [⟨0, 0, (), 1, .loss (some (1 / 2))⟩, ⟨1, 0, (), 1, .crashed⟩] = some rows) ∧
    ¬ (∃ rows, encode s [⟨0, 0, (), 1, .loss (some 7)⟩] = some rows) ∧
    (∃ rows, encode s [⟨0, 0, (), 1, .loss (some 7)⟩, ⟨1, 0, (), 1, .pending⟩] = some rows) := by
  refine ⟨⟨1, floatDom 1 3, floatDom (1 / 3) 1, intDom 0 1, []⟩, ?_, ?_, ?_⟩
  · rw [C44_range_partial _ _ (by simp)]
    · intro t ht y hy
      simp only [List.mem_cons, List.not_mem_nil, or_false] at ht
      rcases ht with rfl | rfl
      · cases hy; norm_num
      · cases hy
    · intro t ht
      simp only [List.mem_cons, List.not_mem_nil, or_false] at ht
      rcases ht with rfl | rfl
      · exact ⟨_, rfl⟩
      · exact ⟨_, rfl⟩
    · intro t ht
      exact ⟨_, cast_float_float (by norm_num) (by norm_num) _⟩
  · rw [C44_range_partial _ _ (by simp)]
    · intro h
      have := h _ List.mem_cons_self 7 rfl
      norm_num at this
    · intro t ht
      simp only [List.mem_cons, List.not_mem_nil, or_false] at ht
      subst ht
      exact ⟨_, rfl⟩
    · intro t ht
      exact ⟨_, cast_float_float (by norm_num) (by norm_num) _⟩
  · refine C44_range_fails _ _ ⟨_, List.mem_cons_of_mem _ List.mem_cons_self, ?_⟩ ?_
    · rintro ⟨y, hy⟩; cases hy
    · intro t ht
      exact ⟨_, cast_float_float (by norm_num) (by norm_num) _⟩

end Verif.Ifbo
