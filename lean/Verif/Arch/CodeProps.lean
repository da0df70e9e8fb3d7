import Verif.Arch.PruneLemmas
import Verif.Arch.CodeLemmas
import Verif.Arch.FlattenProps

/-!
# C111, C112: pruning an architecture and making it a module

`Computes` and `Net.Function` say which function a graph, or a nesting of topologies, is.
-/

namespace Verif.Arch

variable {α : Type}

/-- The graph `prune_graph` starts from: one input `s`, one output `t`, no cycle, no edge and no node
twice, and no node without edges. -/
structure Flat.Good (G : Flat α) (s t : ℕ) : Prop where
  level : Level (G.edges.map fun e => (e.1, e.2.1)) s t
  ends : ∀ e ∈ G.edges, e.1 ∈ G.nodes ∧ e.2.1 ∈ G.nodes
  used : ∀ w ∈ G.nodes, ∃ e ∈ G.edges, w = e.1 ∨ w = e.2.1
  nodup : G.nodes.Nodup

theorem flatten_good [AddCommMonoid α] (N : Net α) {s t : ℕ} (hlev : Level N.pairs s t)
    (hN : N.Nested) : ∃ s' t', (flatten N).Good s' t' := by
  obtain ⟨es, hes⟩ := ops_exists N hN.levels
  obtain ⟨-, ⟨s', t', h2⟩, h3, h4⟩ := flatten_ok hlev hN hes
  exact ⟨s', t', h2, h3, h4, flattenLoop_nodes_nodup N _ _ _ _ _ (by simp)⟩

/-! ## C111 -/

/-- **C111**: pruning leaves exactly the nodes on paths from the input to the output that use no zero
operation, and exactly the edges between them that have none. If there is such a path, the result has
the same input and output, and if not, nothing is left. -/
theorem C111_pruned (zero : ℕ × ℕ × (α → α) → Bool) (G : Flat α) {s t : ℕ} (hG : G.Good s t)
    {order : List ℕ} (ho : Topological (G.dropZero zero).graph order) :
    ∃ H, pruneFlat zero order G = some H ∧
      (∀ n, n ∈ H.nodes ↔ (G.dropZero zero).graph.Path s n ∧ (G.dropZero zero).graph.Path n t ∧
        n ∈ G.nodes) ∧
      (∀ e, e ∈ H.edges ↔ e ∈ G.edges ∧ zero e = false ∧ e.1 ∈ H.nodes ∧ e.2.1 ∈ H.nodes) ∧
      ((G.dropZero zero).graph.Path s t → Level (H.edges.map fun e => (e.1, e.2.1)) s t) ∧
      (¬ (G.dropZero zero).graph.Path s t → H.nodes = [] ∧ H.edges = []) := by
  obtain ⟨H, h1, h2⟩ := pruneFlat_ok hG.level hG.ends hG.used hG.nodup ho
  have hn : ∀ n, n ∈ H.nodes ↔ (G.dropZero zero).graph.Path s n ∧ (G.dropZero zero).graph.Path n t ∧
      n ∈ G.nodes := by
    intro n
    rw [h2.nodes]
    exact ⟨fun ⟨a, b, c⟩ => ⟨b, c, a⟩, fun ⟨a, b, c⟩ => ⟨c, a, b⟩⟩
  have he : ∀ e, e ∈ H.edges ↔ e ∈ G.edges ∧ zero e = false ∧ e.1 ∈ H.nodes ∧ e.2.1 ∈ H.nodes := by
    intro e
    rw [h2.edges, h2.nodes, h2.nodes]
  refine ⟨H, h1, hn, he, fun hp => (kept_level hG.level hG.ends h2 hp).1, fun hp => ?_⟩
  have : H.nodes = [] := by
    rw [List.eq_nil_iff_forall_not_mem]
    intro n hm
    obtain ⟨a, b, -⟩ := (hn n).1 hm
    exact hp (a.trans b)
  refine ⟨this, ?_⟩
  rw [List.eq_nil_iff_forall_not_mem]
  intro e hm
  have := ((he e).1 hm).2.2.1
  rw [‹H.nodes = []›] at this
  cases this

theorem partOf_iff (part : List Char) : ∀ name, partOf part name = true ↔ part <:+: name
  | [] => by
    cases part with
    | nil => simp [partOf]
    | cons c p => simp [partOf]
  | c :: name => by
    rw [partOf, Bool.or_eq_true, List.isPrefixOf_iff_prefix, partOf_iff part name, List.infix_cons_iff]

/-- **C111**: an operation is taken for zero if and only if one of the given names occurs in its name. -/
theorem C111_zero_name (zeroOps : List (List Char)) (name : List Char) :
    isZeroOp zeroOps name = true ↔ ∃ z ∈ zeroOps, ∃ a b, name = a ++ z ++ b := by
  unfold isZeroOp
  rw [List.any_eq_true]
  constructor
  · rintro ⟨z, hz, h⟩
    obtain ⟨a, b, h⟩ := (partOf_iff z name).1 h
    exact ⟨z, hz, a, b, h.symm⟩
  · rintro ⟨z, hz, a, b, h⟩
    exact ⟨z, hz, (partOf_iff z name).2 ⟨a, b, h.symm⟩⟩

/-- **C111** (part): pruning keeps the function, if the operations taken for zero give zero and the
others make zero of zero. Missing: other operations, for which it is wrong. -/
theorem C111_function_partial [AddCommMonoid α] (zero : ℕ × ℕ × (α → α) → Bool) (G : Flat α)
    {s t : ℕ} (hG : G.Good s t) {order : List ℕ} (ho : Topological (G.dropZero zero).graph order)
    (hpath : (G.dropZero zero).graph.Path s t)
    (hzero : ∀ e ∈ G.edges, zero e = true → ∀ x, e.2.2 x = 0) (hkeep : ∀ e ∈ G.edges, e.2.2 0 = 0) :
    ∃ H, pruneFlat zero order G = some H ∧
      ∀ F, Computes List.sum H.edges F ↔ Computes List.sum G.edges F := by
  obtain ⟨H, h1, h2⟩ := pruneFlat_ok hG.level hG.ends hG.used hG.nodup ho
  have hto : ∀ {F}, Computes List.sum G.edges F → Computes List.sum H.edges F :=
    kept_computes hG.level hG.ends h2 hpath hzero (fun e he _ => hkeep e he)
  refine ⟨H, h1, fun F => ⟨fun hF => ?_, hto⟩⟩
  obtain ⟨F', hF'⟩ := computes_exists List.sum hG.level
  rw [computes_unique (kept_level hG.level hG.ends h2 hpath).1 hF (hto hF')]
  exact hF'

/-! ## C112 -/

/-- What is made of a flat graph computes the function of that graph. -/
theorem C112_generated [AddCommMonoid α] (G : Flat α) {s t : ℕ}
    (hlev : Level (G.edges.map fun e => (e.1, e.2.1)) s t)
    (hends : ∀ e ∈ G.edges, e.1 ∈ G.nodes ∧ e.2.1 ∈ G.nodes)
    (hused : ∀ w ∈ G.nodes, ∃ e ∈ G.edges, w = e.1 ∨ w = e.2.1) {order : List ℕ}
    (ho : Topological G.graph order) {F : α → α} (hF : Computes List.sum G.edges F) :
    ∃ g, generate G order = some g ∧ ∀ x, forward g x = some (F x) := by
  obtain ⟨g, hg, -⟩ := generate_ok hlev hends hused ho hF 0
  refine ⟨g, hg, fun x => ?_⟩
  obtain ⟨g', hg', h⟩ := generate_ok hlev hends hused ho hF x
  rw [hg] at hg'
  cases hg'
  exact h

/-- **C112** (part): the module made of an architecture computes, for every input, the function that
its nested topologies are. Missing: architectures whose topologies merge otherwise than by adding,
whose operations do not keep zero, or without `set_recursive_attribute`. -/
theorem C112_module_partial [AddCommMonoid α] (zero : ℕ × ℕ × (α → α) → Bool) (N : Net α) {s t : ℕ}
    (hlev : Level N.pairs s t) (hN : N.Nested) {F : α → α} (hF : N.Function List.sum F)
    (hzero : ∀ e ∈ (flatten N).edges, zero e = true → ∀ x, e.2.2 x = 0)
    (hkeep : ∀ f ∈ N.prims, f 0 = 0) {orders : List ℕ × List ℕ}
    (ho : Topological ((flatten N).dropZero zero).graph orders.1)
    (ho' : ∀ H, pruneFlat zero orders.1 (flatten N) = some H → Topological H.graph orders.2)
    (hpath : ∀ s' t', (flatten N).Good s' t' → ((flatten N).dropZero zero).graph.Path s' t') :
    ∃ g, toPytorch true zero N orders = some g ∧ ∀ x, forward g x = some (F x) := by
  obtain ⟨s', t', hG⟩ := flatten_good N hlev hN
  obtain ⟨F', h1, h2, -⟩ := C110_flatten_partial N hlev hN
  obtain ⟨H, h3, h4⟩ := pruneFlat_ok (zero := zero) hG.level hG.ends hG.used hG.nodup ho
  have hpath := hpath s' t' hG
  obtain ⟨h5, h6, h7⟩ := kept_level hG.level hG.ends h4 hpath
  have hFH : Computes List.sum H.edges F := by
    rw [(h1 F).1 hF]
    exact kept_computes hG.level hG.ends h4 hpath hzero
      (fun e he _ => hkeep _ (flatten_prims N e he)) ((h2 F').2 rfl)
  obtain ⟨g, hg, hfw⟩ := C112_generated H h5 h6 h7 (ho' H h3) hFH
  refine ⟨g, ?_, hfw⟩
  unfold toPytorch
  rw [h3]
  exact hg

/-- **C112** (part): if no operation is taken for zero, operations may be anything. -/
theorem C112_no_zero_partial [AddCommMonoid α] (N : Net α) {s t : ℕ} (hlev : Level N.pairs s t)
    (hN : N.Nested) {F : α → α} (hF : N.Function List.sum F) {orders : List ℕ × List ℕ}
    (ho : Topological (flatten N).graph orders.1)
    (ho' : ∀ H, pruneFlat (fun _ => false) orders.1 (flatten N) = some H → Topological H.graph orders.2) :
    ∃ g, toPytorch true (fun _ => false) N orders = some g ∧ ∀ x, forward g x = some (F x) := by
  obtain ⟨s', t', hG⟩ := flatten_good N hlev hN
  obtain ⟨F', h1, h2, -⟩ := C110_flatten_partial N hlev hN
  have hdrop : (flatten N).dropZero (fun _ => false) = flatten N := by
    unfold Flat.dropZero
    simp
  obtain ⟨H, h3, h4⟩ := pruneFlat_ok (zero := fun _ => false) hG.level hG.ends hG.used hG.nodup
    (by rw [hdrop]; exact ho)
  have hpath := path_all (zero := fun _ => false) hG.level (fun _ _ => rfl)
  obtain ⟨h5, h6, h7⟩ := kept_level hG.level hG.ends h4 hpath
  have hFH : Computes List.sum H.edges F := by
    rw [(h1 F).1 hF]
    exact kept_computes hG.level hG.ends h4 hpath (by simp)
      (fun e he hn => absurd (reached_all hG.level (fun _ _ => rfl) e he) hn) ((h2 F').2 rfl)
  obtain ⟨g, hg, hfw⟩ := C112_generated H h5 h6 h7 (ho' H h3) hFH
  refine ⟨g, ?_, hfw⟩
  unfold toPytorch
  rw [h3]
  exact hg

/-- **C112**: if zero operations cut all paths from the input to the output, no module is made. -/
theorem C112_disconnected [AddCommMonoid α] (zero : ℕ × ℕ × (α → α) → Bool) (N : Net α) {s t : ℕ}
    (hlev : Level N.pairs s t) (hN : N.Nested) {orders : List ℕ × List ℕ}
    (ho : Topological ((flatten N).dropZero zero).graph orders.1)
    (hpath : ∀ s' t', (flatten N).Good s' t' → ¬ ((flatten N).dropZero zero).graph.Path s' t')
    (setRecursive : Bool) : toPytorch setRecursive zero N orders = none := by
  obtain ⟨s', t', hG⟩ := flatten_good N hlev hN
  obtain ⟨H, h1, -, -, -, h2⟩ := C111_pruned zero (flatten N) hG ho
  obtain ⟨h3, -⟩ := h2 (hpath s' t' hG)
  unfold toPytorch
  rw [h1]
  simp only
  split
  · unfold generate
    rw [h3]
    rfl
  · rfl

/-- **C112** is wrong without `set_recursive_attribute`: no architecture can be made a module. -/
theorem C112_recursive_attribute_fails (zero : ℕ × ℕ × (α → α) → Bool) (N : Net α)
    (orders : List ℕ × List ℕ) : toPytorch false zero N orders = none := by
  unfold toPytorch
  split <;> rfl

/-! ## Cases -/

/-- A residual connection with a zero operation before a chain. -/
def zeroNet : Net ℕ :=
  .prim 1 2 (fun _ => 0)
    (.prim 1 3 (7 * ·) (.sub 2 3 List.sum (.prim 1 2 (2 * ·) (.prim 2 3 (5 * ·) .nil)) .nil))

/-- The edge of `flatten zeroNet` with the zero operation. -/
def zeroNetZero (e : ℕ × ℕ × (ℕ → ℕ)) : Bool := e.1 = 1 ∧ e.2.1 = 2

theorem flatten_zeroNet : flatten zeroNet = ⟨[1, 2, 3, 4],
    [(1, 2, fun _ => 0), (1, 3, (7 * ·)), (2, 4, (2 * ·)), (4, 3, (5 * ·))]⟩ := rfl

theorem zeroNet_topological : Topological ((flatten zeroNet).dropZero zeroNetZero).graph [1, 2, 4, 3] := by
  have h : ((flatten zeroNet).dropZero zeroNetZero).graph =
      ⟨[1, 2, 3, 4], [(1, 3), (2, 4), (4, 3)]⟩ := by decide +kernel
  rw [h]
  refine ⟨by decide, ?_, ?_⟩
  · intro n
    simp
    tauto
  · intro u v e
    simp [Graph.Edge] at e
    rcases e with ⟨rfl, rfl⟩ | ⟨rfl, rfl⟩ | ⟨rfl, rfl⟩ <;> decide

/-- The hypotheses of `C112_module_partial` and `C111_function_partial` are met by `zeroNet`. -/
example : Level zeroNet.pairs 1 3 ∧ zeroNet.Nested ∧ (∃ F, zeroNet.Function List.sum F) ∧
    (∀ e ∈ (flatten zeroNet).edges, zeroNetZero e = true → ∀ x, e.2.2 x = 0) ∧
    (∀ f ∈ zeroNet.prims, f 0 = 0) ∧
    (∀ H, pruneFlat zeroNetZero [1, 2, 4, 3] (flatten zeroNet) = some H → Topological H.graph [1, 3]) ∧
    (∀ s' t', (flatten zeroNet).Good s' t' →
      ((flatten zeroNet).dropZero zeroNetZero).graph.Path s' t') := by
  have hb : zeroNet.BuiltinInside := ⟨rfl, ⟨3, .sequential 1⟩, trivial, trivial⟩
  have hl : Level zeroNet.pairs 1 3 := level_builtin .residual
  refine ⟨hl, hb.nested, ?_, ?_, ?_, ?_, ?_⟩
  · obtain ⟨F, h, -⟩ := C110_flatten_partial zeroNet hl hb.nested
    exact ⟨F, (h F).2 rfl⟩
  · rw [flatten_zeroNet]
    intro e he
    simp only [List.mem_cons, List.not_mem_nil, or_false] at he
    rcases he with rfl | rfl | rfl | rfl <;> simp [zeroNetZero]
  · intro f hf
    simp only [zeroNet, Net.prims, List.append_nil, List.mem_cons,
      List.not_mem_nil, or_false] at hf
    rcases hf with rfl | rfl | rfl | rfl <;> rfl
  · intro H hH
    have : pruneFlat zeroNetZero [1, 2, 4, 3] (flatten zeroNet) = some ⟨[1, 3], [(1, 3, (7 * ·))]⟩ := by
      rfl
    rw [this] at hH
    cases hH
    refine ⟨by decide, ?_, ?_⟩
    · intro n
      simp [Flat.graph]
    · intro u v e
      simp [Graph.Edge, Flat.graph] at e
      obtain ⟨rfl, rfl⟩ := e
      decide
  · intro s' t' hG
    have hE : ((flatten zeroNet).edges.map fun e => (e.1, e.2.1)) = [(1, 2), (1, 3), (2, 4), (4, 3)] := rfl
    have hlev := hG.level
    rw [hE] at hlev
    have h13 : ((flatten zeroNet).dropZero zeroNetZero).graph.Path 1 3 :=
      .step (v := 3) (edge_dropZero.2 ⟨(1, 3, (7 * ·)), by rw [flatten_zeroNet]; simp, by decide, rfl, rfl⟩)
        (.here _)
    have hs : s' = 1 := by
      rcases hlev.sourceOnly (1, 2) (by simp) with h | ⟨w, hw⟩
      · exact h.symm
      · simp at hw
    have ht : t' = 3 := by
      rcases hlev.sinkOnly (1, 3) (by simp) with h | ⟨w, hw⟩
      · exact h.symm
      · simp at hw
    rw [hs, ht]
    exact h13

/-- The module made of it, run on 6. -/
example : ((toPytorch true zeroNetZero zeroNet ([1, 2, 4, 3], [1, 3])).bind (forward · 6)) = some 42 := by
  decide +kernel

/-- The module made of `netDemo` without pruning, run on 6: `6 + (2 * (6 + 1) + 5)`. -/
example : ((toPytorch true (fun _ => false) netDemo ([1, 2, 4, 3], [1, 2, 4, 3])).bind (forward · 6)) =
    some 25 := by
  decide +kernel

/-- A residual connection: 2 follows 1, and 3 both. -/
def resFlat (f g h : ℕ → ℕ) : Flat ℕ := ⟨[1, 2, 3], [(1, 2, f), (1, 3, g), (2, 3, h)]⟩

theorem resFlat_good (f g h : ℕ → ℕ) : (resFlat f g h).Good 1 3 := by
  refine ⟨level_builtin .residual, ?_, ?_, by simp [resFlat]⟩
  · intro e he
    simp only [resFlat, List.mem_cons, List.not_mem_nil, or_false] at he
    rcases he with rfl | rfl | rfl <;> simp [resFlat]
  · intro w hw
    simp only [resFlat, List.mem_cons, List.not_mem_nil, or_false] at hw
    rcases hw with rfl | rfl | rfl
    · exact ⟨_, List.mem_cons_self, Or.inl rfl⟩
    · exact ⟨_, List.mem_cons_self, Or.inr rfl⟩
    · exact ⟨_, List.mem_cons_of_mem _ List.mem_cons_self, Or.inr rfl⟩

theorem resFlat_computes (f g h : ℕ → ℕ) :
    Computes List.sum (resFlat f g h).edges (fun x => g x + h (f x)) := by
  intro x
  refine ⟨fun n => if n = 1 then x else if n = 2 then f x else g x + h (f x), ?_, ?_, ?_⟩
  · intro e he
    simp only [resFlat, List.mem_cons, List.not_mem_nil, or_false] at he
    rcases he with rfl | rfl | rfl <;> simp [resFlat]
  · intro e he
    simp only [resFlat, List.mem_cons, List.not_mem_nil, or_false] at he
    rcases he with rfl | rfl | rfl <;> simp [resFlat, inputsAt, mergeInputs]
  · intro e he
    simp only [resFlat, List.mem_cons, List.not_mem_nil, or_false] at he
    rcases he with rfl | rfl | rfl <;> simp [resFlat]

theorem single_computes (g : ℕ → ℕ) : Computes List.sum [(1, 3, g)] g := by
  intro x
  exact ⟨fun n => if n = 3 then g x else x, by simp, by simp [inputsAt, mergeInputs], by simp⟩

/-- **C111** is wrong for operations that do not keep zero: after the zero operation comes one that adds
one, which is gone after pruning. -/
theorem C111_bias_fails : (resFlat (fun _ => 0) id (· + 1)).Good 1 3 ∧
    Computes List.sum (resFlat (fun _ => 0) id (· + 1)).edges (fun x => x + 1) ∧
    ∃ H, pruneFlat (fun e => e.1 = 1 ∧ e.2.1 = 2) [1, 2, 3] (resFlat (fun _ => 0) id (· + 1)) = some H ∧
      Computes List.sum H.edges (fun x => x) :=
  ⟨resFlat_good _ _ _, resFlat_computes _ _ _, _, rfl, single_computes id⟩

/-- **C111** is wrong for operations whose name has the name of a zero operation as a part: the edge with
`nonzero`, which is no zero operation, is removed. -/
theorem C111_zero_name_fails : ∃ names : ℕ × ℕ → String, names (1, 2) = "nonzero" ∧
    (resFlat id id id).Good 1 3 ∧ Computes List.sum (resFlat id id id).edges (fun x => x + x) ∧
    ∃ H, pruneFlat (fun e => isZeroOp ["Zero".toList, "zero".toList] (names (e.1, e.2.1)).toList) [1, 2, 3]
        (resFlat id id id) = some H ∧
      H.edges.map (fun e => (e.1, e.2.1)) = [(1, 3)] ∧ Computes List.sum H.edges (fun x => x) := by
  refine ⟨fun e => if e = (1, 2) then "nonzero" else "id", rfl, resFlat_good _ _ _, resFlat_computes _ _ _,
    ⟨[1, 3], [(1, 3, id)]⟩, by rfl, rfl, single_computes id⟩

end Verif.Arch
