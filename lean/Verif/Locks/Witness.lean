import Verif.Locks.Lemmas

/-!
# Two processes, computed

The model of any number of processes cannot be executed, because whether a lock is free is a question
about all of them; this is the same for two.
-/

namespace Neps.Locks

/-- Processes 0 and 1; the others are idle. -/
def pair (x y : Proc) : World := fun q => if q = 0 then x else if q = 1 then y else {}

/-- One step of a process `x` beside a process `y`. -/
def stepPair (x y : Proc) : Proc :=
  match x.todo with
  | [] => x
  | .acq l :: is =>
    if l ∉ x.held ∧ l ∉ y.held then { x with todo := is, held := l :: x.held } else x
  | .rel l :: is => { x with todo := is, held := x.held.erase l }
  | .work _ :: is => { x with todo := is }

/-- One action of process 0 or 1. -/
def actPair (s : Proc × Proc) : Act → Proc × Proc
  | .start 0 op =>
    if s.1.alive = true ∧ s.1.todo = [] then ({ s.1 with todo := program op }, s.2) else s
  | .start _ op =>
    if s.2.alive = true ∧ s.2.todo = [] then (s.1, { s.2 with todo := program op }) else s
  | .step 0 => if s.1.alive = true then (stepPair s.1 s.2, s.2) else s
  | .step _ => if s.2.alive = true then (s.1, stepPair s.2 s.1) else s
  | .raise 0 => ({ s.1 with todo := [], held := [] }, s.2)
  | .raise _ => (s.1, { s.2 with todo := [], held := [] })
  | .kill 0 => (⟨false, [], []⟩, s.2)
  | .kill _ => (s.1, ⟨false, [], []⟩)

/-- Whom an action concerns. -/
def Act.who : Act → Nat
  | .start p _ | .step p | .raise p | .kill p => p

theorem set_pair0 (x y z : Proc) : set (pair x y) 0 z = pair z y := by
  funext q
  by_cases h : q = 0 <;> simp [set, pair, h]

theorem set_pair1 (x y z : Proc) : set (pair x y) 1 z = pair x z := by
  funext q
  by_cases h : q = 1 <;> simp [set, pair, h]

theorem free_pair (x y : Proc) (l : Lock) : Free (pair x y) l ↔ l ∉ x.held ∧ l ∉ y.held := by
  constructor
  · intro h
    exact ⟨by simpa [pair] using h 0, by simpa [pair] using h 1⟩
  · rintro ⟨h1, h2⟩ q
    unfold pair
    split
    · exact h1
    · split
      · exact h2
      · simp

theorem pair0 (x y : Proc) : pair x y 0 = x := rfl

theorem pair1 (x y : Proc) : pair x y 1 = y := rfl

theorem stepP_pair0 (x y : Proc) : stepP (pair x y) 0 = pair (stepPair x y) y := by
  cases ht : x.todo with
  | nil => simp [stepP, stepPair, pair0, ht]
  | cons i is =>
    cases i with
    | acq l =>
      simp only [stepP, stepPair, pair0, ht, set_pair0, free_pair]
      split <;> rfl
    | rel l => simp only [stepP, stepPair, pair0, ht, set_pair0]
    | work w => simp only [stepP, stepPair, pair0, ht, set_pair0]

theorem stepP_pair1 (x y : Proc) : stepP (pair x y) 1 = pair x (stepPair y x) := by
  cases ht : y.todo with
  | nil => simp [stepP, stepPair, pair1, ht]
  | cons i is =>
    cases i with
    | acq l =>
      simp only [stepP, stepPair, pair1, ht, set_pair1, free_pair, and_comm (a := l ∉ x.held)]
      split <;> rfl
    | rel l => simp only [stepP, stepPair, pair1, ht, set_pair1]
    | work w => simp only [stepP, stepPair, pair1, ht, set_pair1]

theorem act_pair (s : Proc × Proc) (a : Act) (h : a.who = 0 ∨ a.who = 1) :
    act (pair s.1 s.2) a = pair (actPair s a).1 (actPair s a).2 := by
  obtain ⟨x, y⟩ := s
  cases a with
  | start p op =>
    rcases h with rfl | rfl <;> simp only [act, actPair, pair0, pair1, set_pair0, set_pair1] <;>
      split <;> rfl
  | step p =>
    rcases h with rfl | rfl <;>
      simp only [act, actPair, pair0, pair1, stepP_pair0, stepP_pair1] <;> split <;> rfl
  | raise p =>
    rcases h with rfl | rfl <;> simp only [act, actPair, pair0, pair1, set_pair0, set_pair1]
  | kill p =>
    rcases h with rfl | rfl <;> simp only [act, actPair, set_pair0, set_pair1]

/-- The same run, computed. -/
def runPair (as : List Act) : Proc × Proc := as.foldl actPair ({}, {})

theorem run_pair (as : List Act) (h : ∀ a ∈ as, a.who = 0 ∨ a.who = 1) :
    run as = pair (runPair as).1 (runPair as).2 := by
  induction as using List.reverseRecOn with
  | nil =>
    funext q
    simp [run, runPair, pair]
  | append_singleton as a ih =>
    rw [run_append, ih fun b hb => h b (by simp [hb]), act_pair _ _ (h a (by simp))]
    simp [runPair]

end Neps.Locks
