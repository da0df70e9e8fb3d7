import Verif.Arch.NetLemmas

/-!
# C110: flattening keeps the function

A composed function of nested topologies and the flat graph made of it compute the same, if all
topologies merge by adding.
-/

namespace Verif.Arch

variable {α : Type}

/-- **C110** (part): for any nesting of topologies with one input and one output, with whatever
operations, there is exactly one function that it is, and exactly one that the flat graph computes, and
these are the same. The flat graph has again one input and one output, no cycle and no edge twice.
Missing: topologies with a `merge_fn` other than `sum`, for which it is wrong. -/
theorem C110_flatten_partial [AddCommMonoid α] (N : Net α) {s t : ℕ} (hlev : Level N.pairs s t)
    (hN : N.Nested) :
    ∃ F, (∀ F', N.Function List.sum F' ↔ F' = F) ∧
      (∀ F', Computes List.sum (flatten N).edges F' ↔ F' = F) ∧
      ∃ s' t', Level ((flatten N).edges.map fun e => (e.1, e.2.1)) s' t' := by
  obtain ⟨es, hes⟩ := ops_exists N hN.levels
  obtain ⟨F, hF⟩ := computes_exists List.sum (hes.pairs_eq ▸ hlev)
  obtain ⟨h1, ⟨s', t', h2⟩, -⟩ := flatten_ok hlev hN hes
  refine ⟨F, fun F' => ⟨?_, ?_⟩, fun F' => ⟨?_, ?_⟩, s', t', h2⟩
  · rintro ⟨es', hes', hF'⟩
    rw [ops_unique hN.levels hes' hes] at hF'
    exact computes_unique (hes.pairs_eq ▸ hlev) hF' hF
  · rintro rfl
    exact ⟨es, hes, hF⟩
  · intro hF'
    exact computes_unique h2 hF' (h1 F hF)
  · rintro rfl
    exact h1 _ hF

/-- All topologies inside are topologies of the module with the default `merge_fn`. -/
def Net.BuiltinInside [AddCommMonoid α] : Net α → Prop
  | .nil => True
  | .prim _ _ _ rest => BuiltinInside rest
  | .sub _ _ merge inner rest =>
    merge = List.sum ∧ (∃ n, Builtin n inner.pairs) ∧ BuiltinInside inner ∧ BuiltinInside rest

theorem Net.BuiltinInside.nested [AddCommMonoid α] : ∀ {N : Net α}, N.BuiltinInside → N.Nested
  | .nil, _ => trivial
  | .prim _ _ _ rest, h => Net.BuiltinInside.nested (N := rest) h
  | .sub _ _ _ _ _, ⟨h1, ⟨n, h2⟩, h3, h4⟩ => ⟨h1, ⟨1, n, level_builtin h2⟩, h3.nested, h4.nested⟩

/-- **C110** (part), for the five topologies of the module: any nesting of them keeps its function. -/
theorem C110_builtin_partial [AddCommMonoid α] (N : Net α) {n : ℕ} (h : Builtin n N.pairs)
    (hN : N.BuiltinInside) :
    ∃ F, (∀ F', N.Function List.sum F' ↔ F' = F) ∧
      ∀ F', Computes List.sum (flatten N).edges F' ↔ F' = F := by
  obtain ⟨F, h1, h2, -⟩ := C110_flatten_partial N (level_builtin h) hN.nested
  exact ⟨F, h1, h2⟩

/-- A residual connection whose second operation is a chain. -/
def netDemo : Net ℕ :=
  .prim 1 2 (· + 1) (.prim 1 3 id (.sub 2 3 List.sum (.prim 1 2 (2 * ·) (.prim 2 3 (· + 5) .nil)) .nil))

/-- The hypotheses are met, and the flat graph has four nodes. -/
example : Builtin 3 netDemo.pairs ∧ netDemo.BuiltinInside ∧ (flatten netDemo).nodes = [1, 2, 3, 4] ∧
    ((flatten netDemo).edges.map fun e => (e.1, e.2.1)) = [(1, 2), (1, 3), (2, 4), (4, 3)] :=
  ⟨.residual, ⟨rfl, ⟨3, .sequential 1⟩, trivial, trivial⟩, by decide, by decide⟩

/-- A chain of one operation, a residual connection that takes the largest of its inputs. -/
def maxNet : Net ℕ :=
  .sub 1 2 (List.foldl max 0) (.prim 1 2 id (.prim 1 3 id (.prim 2 3 id .nil))) .nil

/-- **C110** is wrong for a topology with its own `merge_fn`: flattening replaces it by the sum. -/
theorem C110_merge_fails : Builtin 2 maxNet.pairs ∧ maxNet.Function List.sum id ∧
    Computes List.sum (flatten maxNet).edges (fun x => x + x) := by
  refine ⟨.sequential 0, ⟨_, .sub (.prim (.prim (.prim .nil))) (F := id) ?_ .nil, ?_⟩, ?_⟩
  · intro x
    refine ⟨fun _ => x, by simp, ?_, by simp⟩
    intro e he
    simp only [List.mem_cons, List.not_mem_nil, or_false] at he
    rcases he with rfl | rfl | rfl <;> simp [inputsAt, mergeInputs]
  · intro x
    exact ⟨fun _ => x, by simp, by simp [inputsAt, mergeInputs], by simp⟩
  · intro x
    have h : (flatten maxNet).edges = [(1, 3, id), (1, 2, id), (3, 2, id)] := by rfl
    rw [h]
    refine ⟨fun n => if n = 2 then x + x else x, ?_, ?_, ?_⟩
    · intro e he
      simp only [List.mem_cons, List.not_mem_nil, or_false] at he
      rcases he with rfl | rfl | rfl <;> simp
    · intro e he
      simp only [List.mem_cons, List.not_mem_nil, or_false] at he
      rcases he with rfl | rfl | rfl <;> simp [inputsAt, mergeInputs]
    · intro e he
      simp only [List.mem_cons, List.not_mem_nil, or_false] at he
      rcases he with rfl | rfl | rfl <;> simp

end Verif.Arch
