import Verif.Plot.CurveLemmas

/-!
# C108: the curve of `neps.plot`

At every point the curve shows the mean, over the seeds, of the best loss found within the budget
of the point.
-/

namespace Neps.Plot

open Neps.Ids

/-- What the curve shows for any key, any number of seeds and any positive costs: at every value
that the budget takes in some seed, the mean over the seeds of the best loss up to the first trial
*finished at or after* that value. For points between two trials of a seed this is not the best
loss found within the budget, see `C108_anticipates_fails`. Missing: failed trials, ids of
multi-fidelity runs, continuations. -/
theorem C108_reached_partial (ragged : Bool) (seeds : List (List Entry)) (key : Option String)
    (w : ℕ) (hf : key ≠ some "fidelity") (hc : ∀ s ∈ seeds, Complete s)
    (hk : ∀ s ∈ seeds, Costed key s)
    (hr : ragged = true ∨ ∀ s ∈ seeds, ∀ t ∈ seeds, s.length = t.length) :
    ∃ pts, curve ragged seeds key false w = some pts ∧
      AxisOf key seeds (pts.map Prod.fst) ∧ MeansOf (BestUntilReached key) seeds pts := by
  obtain ⟨pts, h1, h2, h3⟩ := interpolate_eq ragged seeds key (fun _ => -1) hc hk hr
  refine ⟨pts, ?_, h2, h3⟩
  unfold curve
  rw [mapM_some (g := seedOf key (fun _ => -1))
    (fun s hs => processSeed_eq (hc s hs) (hk s hs) w _ (by rw [maxCost, if_neg hf]))]
  simp only [if_neg hf, h1]

/-- When evaluations are counted (no key), for any number of seeds: at every count `x` the curve
shows the mean over the seeds of the best loss of the first `x` trials by number. Missing: failed
trials, ids of multi-fidelity runs. -/
theorem C108_evaluations_partial (ragged : Bool) (seeds : List (List Entry)) (w : ℕ)
    (hc : ∀ s ∈ seeds, Complete s)
    (hr : ragged = true ∨ ∀ s ∈ seeds, ∀ t ∈ seeds, s.length = t.length) :
    ∃ pts, curve ragged seeds none false w = some pts ∧
      AxisOf none seeds (pts.map Prod.fst) ∧ MeansOf (BestWithin none) seeds pts := by
  have hk : ∀ s ∈ seeds, Costed none s := fun s _ k h => by simp at h
  obtain ⟨pts, h1, h2, h3⟩ := C108_reached_partial ragged seeds none w (by simp) hc hk hr
  refine ⟨pts, h1, h2, ?_⟩
  intro p hp
  obtain ⟨bs, hb, hm⟩ := h3 p hp
  refine ⟨bs, ?_, hm⟩
  obtain ⟨t, ht, f, hft, hx⟩ := (h2.2 p.1).1 (List.mem_map_of_mem hp)
  obtain ⟨i, hi⟩ := index_of_mem hft
  rw [spent_none (hc t ht) hi] at hx
  have key : ∀ (ss : List (List Entry)) (cs : List ℚ), (∀ s ∈ ss, s ∈ seeds) →
      List.Forall₂ (fun s b => BestUntilReached none s p.1 b) ss cs →
      List.Forall₂ (fun s b => BestWithin none s p.1 b) ss cs := by
    intro ss cs hss hall
    induction hall with
    | nil => exact List.Forall₂.nil
    | @cons s b l l' h _ ih =>
      have hs := hss s List.mem_cons_self
      refine List.Forall₂.cons ?_ (ih (fun s hs => hss s (List.mem_cons_of_mem _ hs)))
      refine bestWithin_of (hc s hs) (hk s hs) h ?_
      intro e he hu
      obtain ⟨j, hj⟩ := index_of_mem he
      rw [spent_none (hc s hs) hj, hx]
      have hj' := (List.getElem?_eq_some_iff.1 hj).1
      rw [Nat.cast_le]
      cases j with
      | zero => omega
      | succ j =>
        have hg := List.getElem?_eq_getElem (show j < (sortStats s).length by omega)
        have hm := (sortStats_perm s).mem_iff.1 (List.mem_of_getElem? hg)
        have hlt : num (sortStats s)[j] < num e := by
          obtain ⟨_, rfl⟩ := List.getElem?_eq_some_iff.1 hj
          exact List.pairwise_iff_getElem.1 (sortStats_sorted (hc s hs)) _ _ _ _ (by omega)
        have := hu _ hm hlt
        rw [spent_none (hc s hs) hg, hx, Nat.cast_lt] at this
        omega
  exact key seeds bs (fun s hs => hs) hb

/-- For a single seed and any key with positive numbers: at the budget spent after every trial the
curve shows the best loss found within it. Missing: several seeds, failed trials, ids of
multi-fidelity runs, continuations. -/
theorem C108_single_partial (ragged : Bool) (s : List Entry) (key : Option String) (w : ℕ)
    (hf : key ≠ some "fidelity") (hc : Complete s) (hk : Costed key s) :
    ∃ pts, curve ragged [s] key false w = some pts ∧
      AxisOf key [s] (pts.map Prod.fst) ∧ ∀ p ∈ pts, BestWithin key s p.1 p.2 := by
  obtain ⟨pts, h1, h2, h3⟩ := C108_reached_partial ragged [s] key w hf (by simpa using hc)
    (by simpa using hk) (Or.inr (by simp))
  refine ⟨pts, h1, h2, ?_⟩
  intro p hp
  obtain ⟨bs, hb, hm⟩ := h3 p hp
  obtain ⟨t, ht, f, hft, hx⟩ := (h2.2 p.1).1 (List.mem_map_of_mem hp)
  obtain rfl := List.mem_singleton.1 ht
  cases hb with
  | cons hb1 hb2 =>
    cases hb2
    rename_i b
    have hm' : p.2 = b := by rw [hm]; simp
    rw [hm']
    refine bestWithin_of hc hk hb1 ?_
    intro e he hu
    rw [hx]
    by_contra hlt
    rcases Nat.lt_or_ge (num f) (num e) with h | h
    · exact absurd (hu f hft h) (by rw [hx]; exact lt_irrefl _)
    · rcases Nat.lt_or_ge (num e) (num f) with h' | h'
      · exact hlt (spent_mono hc hk he hft h').le
      · exact hlt (spent_congr (le_antisymm h h')).le

/-- With the key `"fidelity"` the axis is measured in units of the largest fidelity any trial of
any seed reports: the curve is the one of the fidelities spent, its axis divided by that
number. -/
theorem C108_fidelity_axis_partial (ragged : Bool) (seeds : List (List Entry)) (w : ℕ)
    (hne : seeds ≠ []) (hc : ∀ s ∈ seeds, Complete s)
    (hk : ∀ s ∈ seeds, Costed (some "fidelity") s)
    (hr : ragged = true ∨ ∀ s ∈ seeds, ∀ t ∈ seeds, s.length = t.length) :
    ∃ pts m, curve ragged seeds (some "fidelity") false w =
        some (pts.map (fun p => (p.1 / m, p.2))) ∧
      (∃ s ∈ seeds, ∃ e ∈ s, m = costOf (some "fidelity") e) ∧
      (∀ s ∈ seeds, ∀ e ∈ s, costOf (some "fidelity") e ≤ m) ∧
      AxisOf (some "fidelity") seeds (pts.map Prod.fst) ∧
      MeansOf (BestUntilReached (some "fidelity")) seeds pts := by
  have hfold : ∀ (l : List ℚ) (a : ℚ), (l.foldl max a = a ∨ l.foldl max a ∈ l) ∧
      a ≤ l.foldl max a ∧ ∀ x ∈ l, x ≤ l.foldl max a := by
    intro l
    induction l with
    | nil => intro a; simp
    | cons b l ih =>
      intro a
      obtain ⟨h1, h2, h3⟩ := ih (max a b)
      rw [List.foldl_cons]
      refine ⟨?_, (le_max_left a b).trans h2, ?_⟩
      · rcases h1 with h1 | h1
        · rw [h1]
          rcases le_total a b with h | h
          · rw [max_eq_right h]; right; exact List.mem_cons_self
          · rw [max_eq_left h]; left; rfl
        · exact Or.inr (List.mem_cons_of_mem _ h1)
      · intro x hx
        rcases List.mem_cons.1 hx with rfl | hx
        · exact (le_max_right a x).trans h2
        · exact h3 x hx
  have hmax : ∀ l : List ℚ, l ≠ [] → ∃ m, maxOf l = some m ∧ m ∈ l ∧ ∀ x ∈ l, x ≤ m := by
    intro l hl
    cases l with
    | nil => exact absurd rfl hl
    | cons a l =>
      obtain ⟨h1, h2, h3⟩ := hfold l a
      refine ⟨_, rfl, ?_, ?_⟩
      · rcases h1 with h1 | h1
        · rw [h1]; exact List.mem_cons_self
        · exact List.mem_cons_of_mem _ h1
      · intro x hx
        rcases List.mem_cons.1 hx with rfl | hx
        · exact h2
        · exact h3 x hx
  have hseed : ∀ s ∈ seeds, ∃ m, maxCost (sortStats s) (some "fidelity") = some m ∧
      (∃ e ∈ s, m = costOf (some "fidelity") e) ∧ ∀ e ∈ s, costOf (some "fidelity") e ≤ m := by
    intro s hs
    have hmem : ∀ e, e ∈ sortStats s ↔ e ∈ s := fun e => (sortStats_perm s).mem_iff
    have h1 : (sortStats s).mapM (getInfo "fidelity") =
        some ((sortStats s).map (costOf (some "fidelity"))) :=
      mapM_some (fun e he => getCost_some (hk s hs) e ((hmem e).1 he))
    obtain ⟨m, h2, h3, h4⟩ := hmax ((sortStats s).map (costOf (some "fidelity"))) (by
      simpa using sortStats_ne_nil (hc s hs).nonempty)
    refine ⟨m, by simp only [maxCost, if_true, h1, h2], ?_, ?_⟩
    · obtain ⟨e, he, rfl⟩ := List.mem_map.1 h3
      exact ⟨e, (hmem e).1 he, rfl⟩
    · intro e he
      exact h4 _ (List.mem_map_of_mem ((hmem e).2 he))
  have hg : ∀ s ∈ seeds, maxCost (sortStats s) (some "fidelity") =
      some ((maxCost (sortStats s) (some "fidelity")).getD 0) := by
    intro s hs
    obtain ⟨m, hm, _⟩ := hseed s hs
    rw [hm]; rfl
  obtain ⟨pts, h1, h2, h3⟩ := interpolate_eq ragged seeds (some "fidelity")
    (fun s => (maxCost (sortStats s) (some "fidelity")).getD 0) hc hk hr
  obtain ⟨m, hm1, hm2, hm3⟩ := hmax ((seeds.map (seedOf (some "fidelity")
    (fun s => (maxCost (sortStats s) (some "fidelity")).getD 0))).map Seed.maxCost) (by
      simpa using hne)
  rw [List.map_map] at hm2 hm3
  refine ⟨pts, m, ?_, ?_, ?_, h2, h3⟩
  · unfold curve
    rw [mapM_some (g := seedOf (some "fidelity")
      (fun s => (maxCost (sortStats s) (some "fidelity")).getD 0))
      (fun s hs => processSeed_eq (hc s hs) (hk s hs) w _ (hg s hs))]
    simp only [if_true, hm1, interpolate_scale, h1, Option.map_some]
  · obtain ⟨s, hs, he⟩ := List.mem_map.1 hm2
    obtain ⟨m', hm', ⟨e, he1, he2⟩, _⟩ := hseed s hs
    refine ⟨s, hs, e, he1, ?_⟩
    rw [← he2, ← he]
    simp [seedOf, hm']
  · intro s hs e he
    obtain ⟨m', hm', _, hle⟩ := hseed s hs
    refine (hle e he).trans ?_
    have := hm3 _ (List.mem_map_of_mem hs)
    simpa [seedOf, hm'] using this

/-! ## Where the code does not meet the property -/

/-- A run in which one trial crashed cannot be plotted at all. -/
theorem C108_crashed_fails (ragged : Bool) (seeds : List (List Entry)) (key : Option String)
    (cont : Bool) (w : ℕ) (s : List Entry) (hs : s ∈ seeds) (e : Entry) (he : e ∈ s)
    (herr : e.outcome = .error) : curve ragged seeds key cont w = none := by
  have hmapM : ∀ {α β : Type} (f : α → Option β) (l : List α) (x : α), x ∈ l → f x = none →
      l.mapM f = none := by
    intro α β f l x hx hf
    induction l with
    | nil => simp at hx
    | cons a l ih =>
      rw [List.mapM_cons]
      rcases List.mem_cons.1 hx with rfl | hx
      · rw [hf]; rfl
      · rw [ih hx]
        cases f a <;> rfl
  have h1 : processSeed s key cont w = none := by
    have h2 : (sortStats s).mapM getLoss = none :=
      hmapM _ _ e ((sortStats_perm s).mem_iff.2 he) (by simp [getLoss, herr])
    unfold processSeed
    simp only [h2]
    split
    · split
      · rename_i h; simp at h
      · rfl
    · rfl
  unfold curve
  rw [hmapM _ _ s hs h1]

/-- Asking for continuation costs changes nothing with one worker: the cost of the trial that is
continued is never subtracted, because the metadata has no entry of the name looked for. -/
theorem C108_continuation_ignored_fails (ragged : Bool) (seeds : List (List Entry))
    (key : Option String) :
    curve ragged seeds key true 1 = curve ragged seeds key false 1 := by
  have h : ∀ s, processSeed s key true 1 = processSeed s key false 1 := by
    intro s
    have he : ∀ st start, entryCost st key true 1 start = entryCost st key false 1 start := by
      intro st start
      funext e
      unfold entryCost
      have : metadataKeys.contains "previous_config_id" = false := by decide +kernel
      simp only [this]
      split <;> rfl
    unfold processSeed
    simp only [he]
  unfold curve
  simp only [h]

/-- A trial of a test run. -/
def trialOf (id : String) (loss cost : ℚ) (tStart tEnd : ℚ) : Entry :=
  ⟨id.toList, .success loss [("cost", cost)], tStart, tEnd, none⟩

/-- Two black-box seeds with the numbers 1 and 2. -/
def seedA : List Entry := [trialOf "1" 10 1 0 1, trialOf "2" 1 2 1 3]

/-- See `seedA`. -/
def seedB : List Entry := [trialOf "2" 4 2 2 4, trialOf "1" 8 2 0 2]

theorem natStr_one : natStr 1 = ['1'] := by decide +kernel
theorem natStr_two : natStr 2 = ['2'] := by decide +kernel

theorem seedA_complete : Complete seedA :=
  ⟨by simp [seedA], by
    intro e he
    simp only [seedA, List.mem_cons, List.not_mem_nil, or_false] at he
    rcases he with rfl | rfl
    · exact ⟨1, natStr_one.symm⟩
    · exact ⟨2, natStr_two.symm⟩, by decide +kernel, by decide +kernel⟩

theorem seedB_complete : Complete seedB :=
  ⟨by simp [seedB], by
    intro e he
    simp only [seedB, List.mem_cons, List.not_mem_nil, or_false] at he
    rcases he with rfl | rfl
    · exact ⟨2, natStr_two.symm⟩
    · exact ⟨1, natStr_one.symm⟩, by decide +kernel, by decide +kernel⟩

theorem seed_costed {s : List Entry} (h : s = seedA ∨ s = seedB) : Costed (some "cost") s := by
  intro k hk e he
  obtain rfl := Option.some.inj hk
  rcases h with rfl | rfl <;>
  · simp only [seedA, seedB, List.mem_cons, List.not_mem_nil, or_false] at he
    rcases he with rfl | rfl <;> exact ⟨_, _, _, rfl, rfl, by decide +kernel⟩

/-- The hypotheses of the theorems above are met by two seeds of two trials. -/
example : (∀ s ∈ [seedA, seedB], Complete s) ∧ (∀ s ∈ [seedA, seedB], Costed (some "cost") s) ∧
    ∀ s ∈ [seedA, seedB], ∀ t ∈ [seedA, seedB], s.length = t.length := by
  refine ⟨?_, ?_, by decide +kernel⟩
  · intro s hs
    simp only [List.mem_cons, List.not_mem_nil, or_false] at hs
    rcases hs with rfl | rfl
    · exact seedA_complete
    · exact seedB_complete
  · intro s hs
    simp only [List.mem_cons, List.not_mem_nil, or_false] at hs
    exact seed_costed hs

/-- The curves of the two seeds. -/
example : curve false [seedA, seedB] none false 1 = some [(1, 9), (2, 5 / 2)] ∧
    curve false [seedA] (some "cost") false 1 = some [(1, 10), (3, 1)] ∧
    curve false [seedA, seedB] (some "cost") false 1 =
      some [(1, 9), (2, 9 / 2), (3, 5 / 2), (4, 5 / 2)] := by
  decide +kernel

/-- With several seeds and costs the curve shows losses before they are found. At a budget of 2
the seed `seedA` has only found the loss 10 (its second trial ends at 3), and `seedB` the loss 8:
the mean of the best losses is 9, the curve shows 9/2. -/
theorem C108_anticipates_fails :
    ∃ seeds : List (List Entry), (∀ s ∈ seeds, Complete s) ∧
      (∀ s ∈ seeds, Costed (some "cost") s) ∧
      ∃ pts x y, curve false seeds (some "cost") false 1 = some pts ∧ (x, y) ∈ pts ∧
        ∀ bs : List ℚ, List.Forall₂ (fun s b => BestWithin (some "cost") s x b) seeds bs →
          y < bs.sum / bs.length := by
  refine ⟨[seedA, seedB], ?_, ?_, [(1, 9), (2, 9 / 2), (3, 5 / 2), (4, 5 / 2)], 2, 9 / 2,
    by decide +kernel, by decide +kernel, ?_⟩
  · intro s hs
    simp only [List.mem_cons, List.not_mem_nil, or_false] at hs
    rcases hs with rfl | rfl
    · exact seedA_complete
    · exact seedB_complete
  · intro s hs
    simp only [List.mem_cons, List.not_mem_nil, or_false] at hs
    exact seed_costed hs
  · intro bs hbs
    cases hbs with
    | cons ha hbs =>
      cases hbs with
      | cons hb hbs =>
        cases hbs
        rename_i a b
        have ha' : a = 10 := by
          obtain ⟨⟨e, he, h1, h2⟩, _⟩ := ha
          rw [← h2]
          simp only [seedA, List.mem_cons, List.not_mem_nil, or_false] at he
          rcases he with rfl | rfl
          · rfl
          · exact absurd h1 (by decide +kernel)
        have hb' : b = 8 := by
          obtain ⟨⟨e, he, h1, h2⟩, _⟩ := hb
          rw [← h2]
          simp only [seedB, List.mem_cons, List.not_mem_nil, or_false] at he
          rcases he with rfl | rfl
          · exact absurd h1 (by decide +kernel)
          · rfl
        rw [ha', hb']
        decide +kernel

/-- Trials of a multi-fidelity run, in the order in which they were evaluated: configurations 0
and 1 on rung 0, then configuration 0 on rung 1. -/
def seedMF : List Entry := [trialOf "0_0" 9 1 0 1, trialOf "1_0" 8 1 1 2, trialOf "0_1" 2 3 2 5]

/-- In a multi-fidelity run the trials are not taken in the order of their evaluation: the loss of
the trial that was evaluated last is shown after two evaluations. -/
theorem C108_rungs_order_fails :
    (seedMF.map Entry.timeEnd).Pairwise (· < ·) ∧
      curve false [seedMF] none false 1 = some [(1, 9), (2, 2), (3, 2)] := by
  decide +kernel

/-- With several workers and continuations, the times at which the trials end, counted from the
start of the run, are added up once more: the run of `seedA` ends after 3 seconds, the axis of the
curve ends at 4. -/
theorem C108_elapsed_added_fails :
    (∀ e ∈ seedA, e.timeEnd ≤ 3) ∧
      curve false [seedA] (some "cost") true 2 = some [(1, 10), (4, 1)] := by
  decide +kernel

/-- With numpy 1.24 and later, seeds with different numbers of evaluations cannot be plotted
together. -/
theorem C108_ragged_fails (key : Option String) (w : ℕ) (hf : key ≠ some "fidelity")
    (seeds : List (List Entry)) (hc : ∀ s ∈ seeds, Complete s) (hk : ∀ s ∈ seeds, Costed key s)
    (s t : List Entry) (hs : s ∈ seeds) (ht : t ∈ seeds) (hl : s.length ≠ t.length) :
    curve false seeds key false w = none := by
  unfold curve
  rw [mapM_some (g := seedOf key (fun _ => -1))
    (fun s hs => processSeed_eq (hc s hs) (hk s hs) w _ (by rw [maxCost, if_neg hf]))]
  simp only [if_neg hf]
  unfold interpolate
  simp only
  rw [if_pos]
  refine ⟨by simp, _, List.mem_map_of_mem hs, _, List.mem_map_of_mem ht, ?_⟩
  simpa [seedOf, (sortStats_perm _).length_eq] using hl

end Neps.Plot
