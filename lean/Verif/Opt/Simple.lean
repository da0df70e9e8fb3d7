import Verif.Opt.Ids
import Mathlib.Data.List.Perm.Basic

/-!
# Grid search and random search

Model of `neps/optimizers/grid_search/optimizer.py` and
`neps/optimizers/random_search/optimizer.py`. A stored trial is its id and its configuration (of an
arbitrary type `C`); the mapping of trials is a list of them.
-/

namespace Neps.Opt

variable {C : Type}

/-- A stored trial. -/
structure Stored (C : Type) where
  id : List Char
  config : C
deriving DecidableEq, Repr

/-- `ValueError("Grid search exhausted!")`. -/
inductive GridErr
  | exhausted
deriving DecidableEq, Repr

/-- `GridSearch.ask`, `neps/optimizers/grid_search/optimizer.py:31-44`. `shuffle` is
`random.Random(self.seed).sample(_, len(_))`. The case of a position outside the shuffled list
cannot occur; it is given the same exception. -/
def gridAsk (grid : List C) (shuffle : List C → List C) (trials : List (Stored C)) :
    Except GridErr (Stored C) :=
  if (trials.length : Int) > (grid.length : Int) - 1 then .error .exhausted
  else match (shuffle grid)[trials.length]? with
    | some c => .ok ⟨Ids.natStr trials.length, c⟩
    | none => .error .exhausted

/-- `RandomSearch.ask`, `neps/optimizers/random_search/optimizer.py:48-63`; `sampled` is the result
of `pipeline_space.sample`. -/
def randomAsk (sampled : C) (trials : List (Stored C)) : Stored C :=
  ⟨Ids.natStr (trials.length + 1), sampled⟩

/-- Histories of grid search. Each ask sees the stored trials in any order and shuffles with one of
the functions in `S`; its proposal is stored. -/
inductive GridReach (grid : List C) (S : (List C → List C) → Prop) : List (Stored C) → Prop
  | start : GridReach grid S []
  | ask {H H' : List (Stored C)} {shuffle : List C → List C} {t : Stored C} :
      GridReach grid S H → S shuffle → H'.Perm H → gridAsk grid shuffle H' = .ok t →
      GridReach grid S (H ++ [t])

/-- Histories of random search. -/
inductive RandomReach : List (Stored C) → Prop
  | start : RandomReach []
  | ask {H H' : List (Stored C)} (sampled : C) :
      RandomReach H → H'.Perm H → RandomReach (H ++ [randomAsk sampled H'])

/-! ## Grid search -/

theorem grid_history {grid : List C} {shuffle : List C → List C}
    (hperm : (shuffle grid).Perm grid) {H : List (Stored C)} (h : GridReach grid (· = shuffle) H) :
    H.length ≤ grid.length ∧ H.map (·.config) = (shuffle grid).take H.length ∧
      H.map (·.id) = (List.range H.length).map Ids.natStr := by
  have hlen := hperm.length_eq
  induction h with
  | start => simp
  | @ask H H' s t _ hs hp hask ih =>
    subst hs
    obtain ⟨h1, h2, h3⟩ := ih
    simp only [gridAsk, hp.length_eq] at hask
    split at hask
    · cases hask
    · rename_i hlt
      have hlt' : H.length < (s grid).length := by omega
      rw [List.getElem?_eq_getElem hlt'] at hask
      simp only [Except.ok.injEq] at hask
      subst hask
      refine ⟨by simp; omega, ?_, ?_⟩
      · rw [List.map_append, h2, List.length_append]
        simp only [List.map_cons, List.map_nil, List.length_cons, List.length_nil, Nat.zero_add]
        rw [List.take_add_one, List.getElem?_eq_getElem hlt']
        rfl
      · rw [List.map_append, h3, List.length_append]
        simp [List.range_succ]

/-- C21: with a fixed seed, the first `grid.length` asks succeed and propose every point of the
grid exactly once (as often as the grid lists it), the next ask raises. -/
theorem C21_grid_complete (grid : List C) (shuffle : List C → List C)
    (hperm : (shuffle grid).Perm grid) {H H' : List (Stored C)}
    (h : GridReach grid (· = shuffle) H) (hp : H'.Perm H) :
    (H.length < grid.length → ∃ t, gridAsk grid shuffle H' = .ok t) ∧
    (H.length = grid.length →
      (H.map (·.config)).Perm grid ∧ gridAsk grid shuffle H' = .error .exhausted) ∧
    H.length ≤ grid.length ∧
    ∃ rest, (H.map (·.config) ++ rest).Perm grid := by
  obtain ⟨h1, h2, h3⟩ := grid_history hperm h
  refine ⟨?_, ?_, h1, (shuffle grid).drop H.length, ?_⟩
  · intro hlt
    simp only [gridAsk, hp.length_eq]
    rw [if_neg (by omega), List.getElem?_eq_getElem (by rw [hperm.length_eq]; exact hlt)]
    exact ⟨_, rfl⟩
  · intro he
    refine ⟨?_, ?_⟩
    · rw [h2, he, ← hperm.length_eq, List.take_length]
      exact hperm
    · simp only [gridAsk, hp.length_eq]
      rw [if_pos (by omega)]
  · rw [h2, List.take_append_drop]
    exact hperm

example : ([3, 1, 2] : List Nat).Perm [1, 2, 3] ∧
    ∃ H, GridReach [1, 2, 3] (· = fun l : List Nat => l.drop 2 ++ l.take 2) H ∧
      H.map (·.config) = [3, 1, 2] := by
  refine ⟨by decide, _, .ask (.ask (.ask .start rfl (.refl _) rfl) rfl (.refl _) rfl) rfl (.refl _) rfl, rfl⟩

/-- The configurations proposed after any number of asks are those of the whole grid when no ask
fixes the seed? No: with `seed=None`, the default, each ask shuffles anew. Two asks on a grid of
two points may propose the same point, after which the search is exhausted. -/
theorem C21_grid_unseeded_fails :
    ∃ (grid : List Nat) (H : List (Stored Nat)),
      GridReach grid (fun s => ∀ l, (s l).Perm l) H ∧ H.length = grid.length ∧
      (∀ s, gridAsk grid s H = .error .exhausted) ∧
      ¬ (H.map (·.config)).Perm grid := by
  refine ⟨[1, 2], [⟨Ids.natStr 0, 1⟩, ⟨Ids.natStr 1, 1⟩], ?_, rfl, ?_, ?_⟩
  · exact .ask (.ask .start (shuffle := id) (fun l => .refl l) (.refl _) rfl)
      (shuffle := List.reverse) (fun l => l.reverse_perm) (.refl _) rfl
  · intro s; rfl
  · intro h
    have := h.mem_iff (a := 2)
    simp at this

/-! ## Fresh ids -/

theorem natStr_fresh {n m : Nat} {l : List Nat} (h : ∀ i ∈ l, i ≠ m) (_ : n = m) :
    Ids.natStr m ∉ l.map Ids.natStr := by
  intro hm
  obtain ⟨i, hi, he⟩ := List.mem_map.1 hm
  exact h i hi (Ids.natStr_injective he)

/-- C22 for grid search, whatever the seed. -/
theorem C22_grid_id_fresh (grid : List C) (S : (List C → List C) → Prop) {H H' : List (Stored C)}
    (h : GridReach grid S H) (hp : H'.Perm H) {shuffle : List C → List C} {t : Stored C}
    (hask : gridAsk grid shuffle H' = .ok t) : t.id ∉ H.map (·.id) := by
  have hids : H.map (·.id) = (List.range H.length).map Ids.natStr := by
    clear hask hp
    induction h with
    | start => rfl
    | @ask H H' s t _ _ hp hask ih =>
      simp only [gridAsk, hp.length_eq] at hask
      split at hask
      · cases hask
      · split at hask
        · simp only [Except.ok.injEq] at hask
          subst hask
          rw [List.map_append, ih, List.length_append]
          simp [List.range_succ]
        · cases hask
  simp only [gridAsk, hp.length_eq] at hask
  split at hask
  · cases hask
  · split at hask
    · simp only [Except.ok.injEq] at hask
      subst hask
      rw [hids]
      exact natStr_fresh (fun i hi => by have := List.mem_range.1 hi; omega) rfl
    · cases hask

/-- C22 for random search. -/
theorem C22_random_id_fresh {H H' : List (Stored C)} (h : RandomReach H) (hp : H'.Perm H)
    (sampled : C) : (randomAsk sampled H').id ∉ H.map (·.id) := by
  have hids : H.map (·.id) = (List.range' 1 H.length).map Ids.natStr := by
    clear hp
    induction h with
    | start => rfl
    | @ask H H' s _ hp ih =>
      rw [List.map_append, ih, List.length_append]
      simp only [randomAsk, hp.length_eq, List.map_cons, List.map_nil, List.length_cons,
        List.length_nil, Nat.zero_add, List.range'_concat, List.map_append, Nat.one_mul]
      rw [Nat.add_comm]
  rw [hids]
  simp only [randomAsk, hp.length_eq]
  exact natStr_fresh (fun i hi => by have := List.mem_range'_1.1 hi; omega) rfl

example : ∃ H, RandomReach H ∧ H.map (·.id) = ["1".toList, "2".toList] ∧ H.map (·.config) = [7, 7] :=
  ⟨_, .ask 7 (.ask 7 .start (.refl _)) (.refl _), by decide +kernel, rfl⟩

end Neps.Opt
