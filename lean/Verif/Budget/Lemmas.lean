import Verif.Budget.Spec
import Verif.Create.InfoLemmas
import Mathlib.Data.List.Induction

/-!
# The file and the copies agree
-/

namespace Neps.Create.IVal

mutual
theorem stored_stored : ∀ v w : IVal, v.stored = some w → w.stored = some w
  | .none, w, h | .bool _, w, h | .int _, w, h | .str _, w, h | .float _, w, h => by
    simp only [stored, Option.some.injEq] at h
    subst h
    simp [stored]
  | .list l, w, h | .tuple l, w, h => by
    simp only [stored, Option.map_eq_some_iff] at h
    obtain ⟨l', h1, rfl⟩ := h
    simp [stored, storedList_stored l l' h1]
  | .dict d, w, h => by
    simp only [stored, Option.map_eq_some_iff] at h
    obtain ⟨d', h1, rfl⟩ := h
    simp [stored, storedDict_stored d d' h1]
  | .obj _, w, h => by simp [stored] at h
theorem storedList_stored : ∀ l l' : List IVal, storedList l = some l' → storedList l' = some l'
  | [], l', h => by
    simp only [storedList, Option.some.injEq] at h
    subst h
    simp [storedList]
  | v :: l, l', h => by
    simp only [storedList] at h
    split at h
    · rename_i a b h1 h2
      simp only [Option.some.injEq] at h
      subst h
      simp [storedList, stored_stored v a h1, storedList_stored l b h2]
    · simp at h
theorem storedDict_stored : ∀ l l' : List (String × IVal), storedDict l = some l' →
    storedDict l' = some l'
  | [], l', h => by
    simp only [storedDict, Option.some.injEq] at h
    subst h
    simp [storedDict]
  | (k, v) :: l, l', h => by
    simp only [storedDict] at h
    split at h
    · rename_i a b h1 h2
      simp only [Option.some.injEq] at h
      subst h
      simp [storedDict, stored_stored v a h1, storedDict_stored l b h2]
    · simp at h
end

end Neps.Create.IVal

namespace Neps.Budget

open Neps.Create (IVal)

/-- The value can be stored. -/
def Storable (v : IVal) : Prop := ∃ w, v.stored = some w

theorem stored_budget (b : BudgetInfo) : b.asDict.stored = some b.asDict := by
  rcases b with ⟨_ | mc, u, _ | me, ue⟩ <;>
    simp [BudgetInfo.asDict, optFloat, optInt, IVal.stored, IVal.storedDict]

theorem readBudget_asDict (b : BudgetInfo) :
    readBudget [("max_cost_budget", optFloat b.maxCost), ("used_cost_budget", .float b.usedCost),
      ("max_evaluations", optInt b.maxEvals), ("used_evaluations", .int b.usedEvals)] = some b := by
  rcases b with ⟨_ | mc, u, _ | me, ue⟩ <;> rfl

theorem stored_asDict (s : OptState) :
    s.asDict.stored = s.shared.stored.map fun v =>
      .dict [("budget", match s.budget with | some b => b.asDict | none => .none),
        ("shared_state", v)] := by
  rcases s with ⟨_ | b, sh⟩
  · simp only [OptState.asDict, IVal.stored, IVal.storedDict]
    cases sh.stored <;> simp
  · simp only [OptState.asDict, IVal.stored, IVal.storedDict, stored_budget]
    cases sh.stored <;> simp

/-- What is read for the kept state `v`. -/
def orEmpty (v : IVal) : IVal := if truthy v then v else .dict []

theorem write_ok (s : OptState) {v : IVal} (h : s.shared.stored = some v) :
    ∃ f, write s = (f, false) ∧ f ≠ .missing ∧ read f = some ⟨s.budget, orEmpty v⟩ := by
  refine ⟨_, by simp only [write, stored_asDict, h, Option.map_some]; rfl, by simp, ?_⟩
  rcases s with ⟨_ | b, sh⟩
  · simp [read, getKey, Dict.get, orEmpty]
  · simp [read, getKey, Dict.get, orEmpty, BudgetInfo.asDict, readBudget_asDict]

theorem write_bad (s : OptState) (h : s.shared.stored = none) : write s = (.empty, true) := by
  simp [write, stored_asDict, h]

theorem storable_orEmpty {v w : IVal} (h : v.stored = some w) : Storable (orEmpty w) := by
  unfold orEmpty
  split
  · exact ⟨w, IVal.stored_stored v w h⟩
  · exact ⟨.dict [], by simp [IVal.stored, IVal.storedDict]⟩

/-- The budget as it should be. -/
def truth (l : Option PyFloat × Option Int) (log : List Event) : BudgetInfo :=
  ⟨l.1, used log, l.2, 0⟩

/-- The file and the current copies hold the truth. -/
structure Inv (W : World) (lim : Option (Option PyFloat × Option Int)) (log : List Event) :
    Prop where
  fresh : W.ver = none → lim = none ∧ used log = 0 ∧ ∀ p, W.handle p = none
  file : ∀ v, W.ver = some v → ∃ l, lim = some l ∧ v < W.next ∧
    (W.file = .empty ∨ ∃ sh, Storable sh ∧ read W.file = some ⟨some (truth l log), sh⟩) ∧
    ∀ p h, W.handle p = some h → h.ver < W.next ∧ Storable h.cur.shared ∧
      (h.ver = v → h.cur.budget = some (truth l log))

theorem inv_init : Inv {} none [] where
  fresh := by simp [used]
  file := by simp

theorem Inv.synced {W lim log} (I : Inv W lim log) {p : Nat} {h : Handle}
    (hs : sync W p = some h) :
    ∃ l v, W.ver = some v ∧ lim = some l ∧ h.ver = v ∧ h.cur.budget = some (truth l log) ∧
      Storable h.cur.shared := by
  unfold sync at hs
  split at hs
  · rename_i h0 v e1 e2
    obtain ⟨l, e3, _, hf, hh⟩ := I.file v e2
    refine ⟨l, v, e2, e3, ?_⟩
    split at hs
    · rename_i e4
      simp only [Option.some.injEq] at hs
      subst hs
      obtain ⟨_, h2, h3⟩ := hh p h0 e1
      exact ⟨e4, h3 e4, h2⟩
    · simp only [Option.map_eq_some_iff] at hs
      obtain ⟨s, e5, rfl⟩ := hs
      rcases hf with hf | ⟨sh, k, hf⟩
      · rw [hf] at e5
        simp [read] at e5
      · rw [hf] at e5
        simp only [Option.some.injEq] at e5
        subst e5
        exact ⟨rfl, rfl, k⟩
  · simp at hs

/-- The log may grow by events that charge nothing. -/
theorem Inv.log {W lim log} (I : Inv W lim log) (es : List Event) (h : used es = 0) :
    Inv W lim (log ++ es) := by
  have e : used (log ++ es) = used log := by
    simp only [used, List.map_append, List.sum_append] at h ⊢
    rw [h, add_zero]
  have e' : ∀ l, truth l (log ++ es) = truth l log := by simp [truth, e]
  exact ⟨by rw [e]; exact I.fresh, by simpa only [e'] using I.file⟩

/-- A process gets an up to date copy. -/
theorem Inv.give {W lim log} (I : Inv W lim log) {p : Nat} {h : Handle} {l v}
    (e : W.ver = some v) (e3 : lim = some l) (e1 : h.ver = v)
    (e2 : h.cur.budget = some (truth l log)) (k : Storable h.cur.shared) :
    Inv (W.give p h) lim log where
  fresh := by simp [World.give, e]
  file := by
    intro v' hv
    simp only [World.give] at hv ⊢
    obtain rfl : v' = v := by rw [e] at hv; exact (Option.some.inj hv).symm
    obtain ⟨l', e3', h1, hf, hh⟩ := I.file v' e
    obtain rfl : l' = l := by rw [e3] at e3'; exact (Option.some.inj e3').symm
    refine ⟨l', e3, h1, hf, ?_⟩
    intro q h' hq
    split at hq
    · simp only [Option.some.injEq] at hq
      subst hq
      exact ⟨by omega, k, fun _ => e2⟩
    · exact hh q h' hq

/-- A successful or failed `put` of a state whose budget is the truth. -/
theorem Inv.put {W lim log} (I : Inv W lim log) {p : Nat} {cur s : OptState} {l v es}
    (e : W.ver = some v) (e3 : lim = some l)
    (hcur : cur.budget = some (truth l log)) (kcur : Storable cur.shared)
    (hs : s.budget = some (truth l (log ++ es))) :
    (∀ W', put W p cur s = (W', true) → Inv W' lim (log ++ es)) ∧
      (∀ W', put W p cur s = (W', false) → ¬ Storable s.shared ∧ Inv W' lim log) := by
  obtain ⟨l', e3', h1, hf, hh⟩ := I.file v e
  obtain rfl : l' = l := by rw [e3] at e3'; exact (Option.some.inj e3').symm
  rcases hst : s.shared.stored with _ | w
  · rw [Budget.put, write_bad s hst, e]
    refine ⟨by simp, ?_⟩
    intro W' hW
    simp only [Prod.mk.injEq, and_true] at hW
    subst hW
    refine ⟨by rintro ⟨w, hw⟩; simp [hst] at hw, ?_⟩
    refine Inv.give ⟨by simp, ?_⟩ rfl e3 rfl hcur kcur
    intro v' hv'
    obtain ⟨l2, q1, q2, q3, q4⟩ := I.file v' (e.trans hv')
    exact ⟨l2, q1, q2, Or.inl rfl, q4⟩
  · obtain ⟨f, hw, _, hr⟩ := write_ok s hst
    rw [Budget.put, hw]
    refine ⟨?_, by simp⟩
    intro W' hW
    simp only [Prod.mk.injEq, and_true] at hW
    subst hW
    constructor
    · simp [World.give]
    · intro v' hv'
      simp only [World.give, Option.some.injEq] at hv' ⊢
      subst hv'
      refine ⟨l', e3, by omega, Or.inr ⟨_, storable_orEmpty hst, by rw [hr, hs]⟩, ?_⟩
      intro q h' hq
      split at hq
      · simp only [Option.some.injEq] at hq
        subst hq
        exact ⟨by simp, ⟨w, hst⟩, fun _ => hs⟩
      · obtain ⟨q1, q2, _⟩ := hh q h' hq
        exact ⟨by omega, q2, by omega⟩

/-- The limits after an operation. -/
def nextLimits (lim : Option (Option PyFloat × Option Int)) : Op →
    Option (Option PyFloat × Option Int)
  | .launch mc me => some (lim.getD (mc, me))
  | _ => lim

theorem Inv.step {W lim log} (I : Inv W lim log) (p : Nat) (op : Op) (h0 : (W.handle p).isSome ∨ ∃ a b, op = .launch a b) :
    Inv (step W p op).1 (nextLimits lim op) (log ++ (step W p op).2) := by
  cases op with
  | launch mc me =>
    simp only [Budget.step, nextLimits]
    cases hv : W.ver with
    | none =>
      obtain ⟨f1, f2, f3⟩ := I.fresh hv
      have hst : (launchState mc me).shared.stored = some (.dict []) := by
        simp [launchState, IVal.stored, IVal.storedDict]
      obtain ⟨f, hw, _, hr⟩ := write_ok _ hst
      simp only [open', hv, hw, f1, Option.getD_none, List.append_nil]
      constructor
      · simp [World.give]
      · intro v' hv'
        simp only [World.give, Option.some.injEq] at hv' ⊢
        subst hv'
        refine ⟨(mc, me), rfl, by omega, Or.inr ⟨_, storable_orEmpty hst, ?_⟩, ?_⟩
        · rw [hr]
          simp [launchState, truth, f2]
        · intro q h' hq
          split at hq
          · simp only [Option.some.injEq] at hq
            subst hq
            exact ⟨by simp, ⟨_, hst⟩, fun _ => by simp [launchState, truth, f2]⟩
          · simp [f3] at hq
    | some v =>
      obtain ⟨l, e3, h1, hf, hh⟩ := I.file v hv
      simp only [open', hv, e3, Option.getD_some]
      rcases hf with hf | ⟨sh, k, hf⟩
      · have : read W.file = none := by rw [hf]; rfl
        simp only [this]
        refine Inv.log (es := [.raised]) ?_ (by simp [used, Event.cost])
        constructor
        · simp [hv]
        · intro v' hv'
          obtain rfl : v' = v := by rw [hv] at hv'; exact (Option.some.inj hv').symm
          refine ⟨l, rfl, h1, Or.inl hf, ?_⟩
          intro q h' hq
          simp only at hq
          split at hq
          · simp at hq
          · exact hh q h' hq
      · simp only [hf, List.append_nil]
        rw [← e3]
        exact I.give hv e3 rfl rfl k
  | ask reply =>
    obtain ⟨h, hp⟩ : ∃ h, W.handle p = some h := by
      rcases h0 with h0 | ⟨a, b, h0⟩
      · exact Option.isSome_iff_exists.1 h0
      · simp at h0
    simp only [Budget.step, nextLimits, hp]
    cases hs : sync W p with
    | none => exact I.log _ (by simp [used, Event.cost])
    | some h =>
      obtain ⟨l, v, e1, e2, e3, e4, k⟩ := I.synced hs
      have key : ∀ s : OptState, s.budget = h.cur.budget →
          Inv (match Budget.put W p h.cur s with
            | (W, true) => (W, [Event.told h.cur.budget, .created])
            | (W, false) => (W, [Event.told h.cur.budget, .created, .raised])).1 lim
            (log ++ (match Budget.put W p h.cur s with
            | (W, true) => (W, [Event.told h.cur.budget, .created])
            | (W, false) => (W, [Event.told h.cur.budget, .created, .raised])).2) := by
        intro s hsb
        obtain ⟨k1, k2⟩ := I.put (p := p) (cur := h.cur) (s := s) (es := []) e1 e2 e4 k
          (by rw [hsb, e4, List.append_nil])
        rcases hput : Budget.put W p h.cur s with ⟨W', _ | _⟩
        · exact (k2 W' hput).2.log _ (by simp [used, Event.cost])
        · have := k1 W' hput
          rw [List.append_nil] at this
          exact this.log _ (by simp [used, Event.cost])
      cases hr : reply h.cur.budget with
      | raises =>
        simp only [hr]
        exact (I.give e1 e2 e3 e4 k).log _ (by simp [used, Event.cost])
      | unusable =>
        simp only [hr]
        exact (I.give e1 e2 e3 e4 k).log _ (by simp [used, Event.cost])
      | config =>
        simp only [hr]
        exact key _ rfl
      | configAnd keep =>
        simp only [hr]
        exact key _ rfl
  | report cost =>
    obtain ⟨h, hp⟩ : ∃ h, W.handle p = some h := by
      rcases h0 with h0 | ⟨a, b, h0⟩
      · exact Option.isSome_iff_exists.1 h0
      · simp at h0
    simp only [Budget.step, nextLimits, hp]
    cases hs : sync W p with
    | none => exact I.log _ (by simp [used, Event.cost])
    | some h =>
      obtain ⟨l, v, e1, e2, e3, e4, k⟩ := I.synced hs
      have ks : Storable (addCost h.cur cost).shared := by
        rcases cost with _ | c <;> simpa [addCost, e4] using k
      have hb : (addCost h.cur cost).budget =
          some (truth l (log ++ [.reported cost, .charged cost])) := by
        rcases cost with _ | c <;> simp [addCost, e4, truth, used, Event.cost]
      obtain ⟨w, hw⟩ := ks
      obtain ⟨f, hf, _⟩ := write_ok _ hw
      simp only [Budget.put, hf]
      obtain ⟨k1, -⟩ := I.put (p := p) (cur := h.cur) (s := addCost h.cur cost) e1 e2 e4 k hb
      exact k1 _ (by simp [Budget.put, hf])

/-- The limits of a longer history. -/
theorem firstLimits_append (h : List (Nat × Op)) (p : Nat) (op : Op) :
    firstLimits (h ++ [(p, op)]) = nextLimits (firstLimits h) op := by
  induction h with
  | nil => cases op <;> simp [firstLimits, nextLimits]
  | cons x h ih =>
    rcases x with ⟨q, _ | _ | _⟩
    · cases op <;> simp [firstLimits, nextLimits]
    · simpa [firstLimits] using ih
    · simpa [firstLimits] using ih

theorem run_append (W : World) (h : List (Nat × Op)) (p : Nat) (op : Op) :
    run W (h ++ [(p, op)]) =
      ((step (run W h).1 p op).1, (run W h).2 ++ (step (run W h).1 p op).2) := by
  induction h generalizing W with
  | nil => simp [run]
  | cons x h ih =>
    obtain ⟨q, o⟩ := x
    simp [run, ih]

theorem inv_run (h : List (Nat × Op)) : Inv (run {} h).1 (firstLimits h) (run {} h).2 := by
  induction h using List.reverseRecOn with
  | nil => exact inv_init
  | append_singleton h x ih =>
    obtain ⟨p, op⟩ := x
    rw [run_append, firstLimits_append]
    by_cases h0 : ((run {} h).1.handle p).isSome ∨ ∃ a b, op = .launch a b
    · exact ih.step p op h0
    · push Not at h0
      obtain ⟨h1, h2⟩ := h0
      have h1 : (run {} h).1.handle p = none := by simpa using h1
      cases op with
      | launch a b => exact absurd rfl (h2 a b)
      | ask reply => simpa [Budget.step, h1, nextLimits] using ih
      | report cost => simpa [Budget.step, h1, nextLimits] using ih

end Neps.Budget
