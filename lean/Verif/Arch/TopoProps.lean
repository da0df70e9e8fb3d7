import Verif.Arch.TopoLemmas

/-!
# C102: calling a topology evaluates its graph
-/

namespace Verif.Arch

variable {α : Type}

/-- **C102**: a topology of the module, built with one operation for each of its edges, is called:
there is exactly one way in which values flow through its nodes, and the call ends and returns the
value of the last node. `op` assigns to the edges the given operations, in their order. -/
theorem C102_builtin {n : ℕ} {edges : List (ℕ × ℕ)} (hb : Builtin n edges) (ops : List (α → α))
    (hlen : ops.length = edges.length) (op : ℕ × ℕ → α → α)
    (hop : ∀ (i : ℕ) (e : ℕ × ℕ) (f : α → α), edges[i]? = some e → ops[i]? = some f → op e = f)
    (merge : List α → α) (x : α) :
    ∃ val : ℕ → α, Flow edges op merge x val ∧
      (∀ val', Flow edges op merge x val' → ∀ v, 1 ≤ v → v ≤ n → val' v = val v) ∧
      ∀ fuel, n + edges.length ≤ fuel →
        call (mkTopology edges ops merge) fuel x = some (val n) := by
  obtain ⟨hn, hbf⟩ := breadthFirst_builtin hb
  obtain ⟨val, hval⟩ := flow_exists hbf op merge x
  refine ⟨val, hval, fun val' h' v h1 h2 => flow_unique hbf h' hval v h1 h2, ?_⟩
  intro fuel hfuel
  have he := mkTopology_edges merge hlen
  refine call_eq _ (n := n) (by rw [he]; exact hbf) hn ?_ (by rw [he]; exact hfuel)
  rw [he]
  refine hval.congr ?_
  intro e hm
  obtain ⟨i, hi⟩ := List.mem_iff_getElem?.1 hm
  have hlt : i < edges.length := by
    rw [List.getElem?_eq_some_iff] at hi
    exact hi.1
  have hf : ops[i]? = some (ops[i]'(by omega)) := by simp
  rw [mkTopology_op merge hlen (nodup_builtin hb) hi hf, hop i e _ hi hf]

/-- **C102, any topology**: the same for every graph that is numbered breadth first, and for every
such flow. -/
theorem C102_breadth_first (T : Topology α) {n : ℕ} (h : BreadthFirst n T.edges) (hn : 2 ≤ n)
    {val : ℕ → α} {x : α} (hf : Flow T.edges T.op T.merge x val) {fuel : ℕ}
    (hfuel : n + T.edges.length ≤ fuel) : call T fuel x = some (val n) :=
  call_eq T h hn hf hfuel

theorem seq_flow (ops : List (α → α)) (op : ℕ × ℕ → α → α) (merge : List α → α) (x : α)
    (hop : ∀ (i : ℕ) (f : α → α), ops[i]? = some f → op (i + 1, i + 2) = f) {val : ℕ → α}
    (hf : Flow (sequentialEdges ops.length) op merge x val) :
    ∀ i, i ≤ ops.length → val (i + 1) = (ops.take i).foldl (fun a f => f a) x := by
  intro i
  induction i with
  | zero => intro _; simpa using hf.1
  | succ i ih =>
    intro hi
    have hfil : (sequentialEdges ops.length).filter (·.2 = i + 2) = [(i + 1, i + 2)] := by
      rw [sequentialEdges, List.filter_map, List.map_eq_singleton_iff]
      refine ⟨i, ?_, rfl⟩
      have : ∀ m, i < m → (List.range m).filter ((fun e : ℕ × ℕ => decide (e.2 = i + 2)) ∘
          fun i => (i + 1, i + 2)) = [i] := by
        intro m
        induction m with
        | zero => intro h; omega
        | succ m ihm =>
          intro h
          rw [List.range_succ, List.filter_append]
          by_cases hm : i < m
          · rw [ihm hm, List.filter_cons_of_neg (by simp; omega)]
            rfl
          · have : m = i := by omega
            subst this
            rw [List.filter_eq_nil_iff.2, List.filter_cons_of_pos (by simp)]
            · rfl
            · intro a ha
              rw [List.mem_range] at ha
              simp; omega
      exact this _ (by omega)
    rw [hf.2.1 (i + 1) (i + 2) hfil, ih (by omega)]
    have hget : ops[i]? = some (ops[i]'(by omega)) := by simp
    rw [hop i _ hget, List.take_succ_eq_append_getElem (by omega), List.foldl_append]
    rfl

/-- **C102, sequential**: a sequential topology applies its operations one after the other. -/
theorem C102_sequential (ops : List (α → α)) (h : ops ≠ []) (merge : List α → α) (x : α)
    (fuel : ℕ) (hfuel : 2 * ops.length + 1 ≤ fuel) :
    call (mkTopology (sequentialEdges ops.length) ops merge) fuel x =
      some (ops.foldl (fun a f => f a) x) := by
  have hpos : 0 < ops.length := List.length_pos_iff.2 h
  have hl : (sequentialEdges ops.length).length = ops.length := by simp [sequentialEdges]
  have hb : Builtin (ops.length + 1) (sequentialEdges ops.length) := by
    have := Builtin.sequential (ops.length - 1)
    rwa [show ops.length - 1 + 2 = ops.length + 1 by omega, Nat.sub_add_cancel hpos] at this
  have hop : ∀ (i : ℕ) (f : α → α), ops[i]? = some f →
      (mkTopology (sequentialEdges ops.length) ops merge).op (i + 1, i + 2) = f := by
    intro i f hi
    have hlt := (List.getElem?_eq_some_iff.1 hi).1
    exact mkTopology_op merge hl.symm (nodup_builtin hb) (i := i)
      (by simp [sequentialEdges, hlt]) hi
  obtain ⟨val, hv, -, hc⟩ := C102_builtin hb ops hl.symm
    (mkTopology (sequentialEdges ops.length) ops merge).op
    (fun i e f he hf => mkTopology_op merge hl.symm (nodup_builtin hb) he hf) merge x
  rw [hc fuel (by omega), seq_flow ops _ merge x hop hv ops.length (Nat.le_refl _), List.take_length]

/-- **C102, residual, diamond and diamond with an edge in the middle**, spelled out. -/
theorem C102_small (f g h k l : α → α) (merge : List α → α) (x : α) (fuel : ℕ) (hf : 9 ≤ fuel) :
    call (mkTopology residualEdges [f, g, h] merge) fuel x = some (merge [g x, h (f x)]) ∧
    call (mkTopology diamondEdges [f, g, h, k] merge) fuel x =
      some (merge [h (f x), k (g x)]) ∧
    call (mkTopology diamondMidEdges [f, g, h, k, l] merge) fuel x =
      some (merge [k (f x), l (merge [g x, h (f x)])]) := by
  refine ⟨?_, ?_, ?_⟩
  · have hop := fun (i : ℕ) (e : ℕ × ℕ) (p : α → α) (he : residualEdges[i]? = some e)
      (hp : [f, g, h][i]? = some p) => mkTopology_op merge rfl (nodup_builtin .residual) he hp
    obtain ⟨val, hv, -, hc⟩ := C102_builtin .residual [f, g, h] rfl _ hop merge x
    have v2 := hv.2.1 1 2 rfl
    have v3 := hv.2.2 3 (by decide)
    rw [hop 0 _ f rfl rfl, hv.1] at v2
    rw [hc fuel (by simp [residualEdges]; omega), v3,
      show residualEdges.filter (·.2 = 3) = [(1, 3), (2, 3)] from rfl]
    simp only [List.map_cons, List.map_nil]
    rw [hop 1 _ g rfl rfl, hop 2 _ h rfl rfl, hv.1, v2]
  · have hop := fun (i : ℕ) (e : ℕ × ℕ) (p : α → α) (he : diamondEdges[i]? = some e)
      (hp : [f, g, h, k][i]? = some p) => mkTopology_op merge rfl (nodup_builtin .diamond) he hp
    obtain ⟨val, hv, -, hc⟩ := C102_builtin .diamond [f, g, h, k] rfl _ hop merge x
    have v2 := hv.2.1 1 2 rfl
    have v3 := hv.2.1 1 3 rfl
    have v4 := hv.2.2 4 (by decide)
    rw [hop 0 _ f rfl rfl, hv.1] at v2
    rw [hop 1 _ g rfl rfl, hv.1] at v3
    rw [hc fuel (by simp [diamondEdges]; omega), v4,
      show diamondEdges.filter (·.2 = 4) = [(2, 4), (3, 4)] from rfl]
    simp only [List.map_cons, List.map_nil]
    rw [hop 2 _ h rfl rfl, hop 3 _ k rfl rfl, v2, v3]
  · have hop := fun (i : ℕ) (e : ℕ × ℕ) (p : α → α) (he : diamondMidEdges[i]? = some e)
      (hp : [f, g, h, k, l][i]? = some p) => mkTopology_op merge rfl (nodup_builtin .diamondMid) he hp
    obtain ⟨val, hv, -, hc⟩ := C102_builtin .diamondMid [f, g, h, k, l] rfl _ hop merge x
    have v2 := hv.2.1 1 2 rfl
    have v3 := hv.2.2 3 (by decide)
    have v4 := hv.2.2 4 (by decide)
    rw [hop 0 _ f rfl rfl, hv.1] at v2
    rw [show diamondMidEdges.filter (·.2 = 3) = [(1, 3), (2, 3)] from rfl] at v3
    simp only [List.map_cons, List.map_nil] at v3
    rw [hop 1 _ g rfl rfl, hop 2 _ h rfl rfl, hv.1, v2] at v3
    rw [hc fuel (by simp [diamondMidEdges]; omega), v4,
      show diamondMidEdges.filter (·.2 = 4) = [(2, 4), (3, 4)] from rfl]
    simp only [List.map_cons, List.map_nil]
    rw [hop 3 _ k rfl rfl, hop 4 _ l rfl rfl, v2, v3]

/-- **C102 fails** when a topology is built with fewer operations than it has edges: nothing is
raised, and a diamond with three operations ignores the second. -/
theorem C102_missing_operation_fails (f g h : α → α) (merge : List α → α) (x : α)
    (fuel : ℕ) (hf : 7 ≤ fuel) :
    call (mkTopology diamondEdges [f, g, h] merge) fuel x = some (h (f x)) := by
  have he : (mkTopology diamondEdges [f, g, h] merge).edges = [(1, 2), (1, 3), (2, 4)] := rfl
  have hs : ([(1, 2), (1, 3), (2, 4)] : List (ℕ × ℕ)).Pairwise
      fun e f => e.2 < f.2 ∨ e.2 = f.2 ∧ e.1 < f.1 := by decide
  refine C102_breadth_first (n := 4)
    (val := fun v => if v = 1 then x else if v = 2 then f x else if v = 3 then g x else h (f x)) _
    ?_ (by omega) ⟨rfl, ?_, ?_⟩ (by rw [he]; simpa using hf)
  · rw [he]
    exact breadthFirst_builtin.small _ (sorted_by_target hs) (by decide) (by decide) (by decide)
  · rw [he]
    intro u v hv
    have hm : (u, v) ∈ ([(1, 2), (1, 3), (2, 4)] : List (ℕ × ℕ)) :=
      (List.mem_filter.1 (by rw [hv]; simp :
        (u, v) ∈ ([(1, 2), (1, 3), (2, 4)] : List (ℕ × ℕ)).filter (·.2 = v))).1
    simp only [List.mem_cons, Prod.mk.injEq, List.not_mem_nil, or_false] at hm
    rcases hm with ⟨rfl, rfl⟩ | ⟨rfl, rfl⟩ | ⟨rfl, rfl⟩ <;> rfl
  · rw [he]
    intro v hv
    exfalso
    simp only [List.filter_cons, List.filter_nil] at hv
    by_cases h2 : 2 = v
    · subst h2; simp at hv
    · by_cases h3 : 3 = v
      · subst h3; simp at hv
      · by_cases h4 : 4 = v
        · subst h4; simp at hv
        · simp [h2, h3, h4] at hv

/-- A graph whose node 4 is met, from node 1, before all its inputs are there. -/
def lateEdges : List (ℕ × ℕ) := [(1, 2), (1, 4), (2, 3), (3, 4), (4, 5)]

/-- **C102 fails** for a graph that is not numbered breadth first: with the identity on the edges and
the sum at the nodes, the value of the last node is 2, and the call returns 3. -/
theorem C102_late_input_fails : ∃ val : ℕ → ℕ,
    Flow lateEdges (fun _ => id) List.sum 1 val ∧ val 5 = 2 ∧
    call (⟨lateEdges, fun _ => id, List.sum⟩ : Topology ℕ) 20 1 = some 3 := by
  refine ⟨fun v => if v ≤ 3 then 1 else 2, ⟨by simp, ?_, ?_⟩, by simp, by decide +kernel⟩
  · intro u v hv
    have hm : (u, v) ∈ lateEdges :=
      (List.mem_filter.1 (by rw [hv]; simp : (u, v) ∈ lateEdges.filter (·.2 = v))).1
    simp only [lateEdges, List.mem_cons, Prod.mk.injEq, List.not_mem_nil, or_false] at hm
    rcases hm with ⟨rfl, rfl⟩ | ⟨rfl, rfl⟩ | ⟨rfl, rfl⟩ | ⟨rfl, rfl⟩ | ⟨rfl, rfl⟩
    · rfl
    · simp [lateEdges] at hv
    · rfl
    · simp [lateEdges] at hv
    · rfl
  · intro v hv
    by_cases h4 : v = 4
    · subst h4; rfl
    · exfalso
      have : ∀ v, v ≠ 4 → (lateEdges.filter (·.2 = v)).length ≤ 1 := by
        intro v hv
        simp only [lateEdges, List.filter_cons]
        have h4 : ¬ (4 = v) := fun h => hv h.symm
        by_cases h2 : 2 = v
        · subst h2; simp
        · by_cases h3 : 3 = v
          · subst h3; simp
          · by_cases h5 : 5 = v
            · subst h5; simp
            · simp [h2, h3, h4, h5]
      have := this v h4
      omega

/-- The hypotheses of the theorems are met. -/
example : Builtin 4 (denseEdges 4) ∧ (denseEdges 4).length = 6 ∧
    call (mkTopology (denseEdges 4) [(· + 1), (· * 2), (· * 3), (· + 5), (· * 7), (· * 11)] List.sum)
      10 (1 : ℕ) = some (6 + 14 + 88) :=
  ⟨.dense 2, rfl, by decide +kernel⟩

end Verif.Arch
