import Verif.Repr.FlowLemmas
import Verif.Arch.Props
import Verif.Arch.PruneLemmas

/-!
# The graph of an architecture shows what its text describes (C124)
-/

namespace Verif.Repr

open Verif.Gram (Str Func Forest treeText)
open Verif.Arch (Graph)

/-- **C124** (partial: the tree applies a topology, and the edges of every topology are listed in
order, see `C124_single_operation_fails` and `C124_edge_order_fails`): let a tree describe a composition
of topologies and operations, every topology with as many arguments as it has edges.

If the composition connects the input with the output, the value of the architecture is a graph that
shows it: one node, with its name, for every operation on a way from the input to the output that is
neither "no connection" nor "plain connection"; one for the input and one for the output; and an edge
exactly where a way through plain connections only leads from the one to the other. If nothing connects
the input with the output, there is an exception. -/
theorem C124_graph_partial (S : Setup) (hS : S.Lexical) (hT : ∀ t es, (t, es) ∈ S.topos → Sensible es)
    (order : Graph → List ℕ) (ho : Sorts order) (A : Str) (kids : Forest) (hA : Name A)
    (hc : Clean kids) (t : Str) (args : List Func)
    (hf : kids.functions S.isTopology = [.comp t args]) (hfit : Fits S (.comp t args)) :
    (Flow S (leaves S.edges (.comp t args) [] .source .sink) .source .sink →
      ∃ g label num, graphRepr S order (treeText A kids) = some (g, label) ∧
        Shows S (leaves S.edges (.comp t args) [] .source .sink) g label num) ∧
    (¬ Flow S (leaves S.edges (.comp t args) [] .source .sink) .source .sink →
      graphRepr S order (treeText A kids) = none) := by
  obtain ⟨cs, hcs, hno, hyes⟩ := cells_lookup hT
  obtain ⟨s, Y, h1, h2, hI, hR⟩ := run_root hno hyes t args hfit
  have hterms : terms kids = word (.comp t args) := by
    rw [← words_functions S.isTopology kids, hf]
    simp [words]
  have hk : kids ≠ .nil := by
    rintro rfl
    simp [Forest.functions] at hf
  have hdraw : drawTree S (treeText A kids) = some s := by
    unfold drawTree
    rw [hcs]
    simp only
    rw [fold_text hS hA hk hc (by rw [hterms]; exact word_valid _ hfit), hterms, h1]
    simp [h2]
  have hd := leaves_nodup S.edges (.comp t args) [] .source .sink
  obtain ⟨r, hr⟩ := hI.order
  have htop := ho s.g (exists_topological hI.nodup hI.wf hr)
  obtain ⟨g, hp, hn, he⟩ := Arch.C96_pruned s.g 0 1 (order s.g) hI.wf hI.nodup htop hI.no_edge_one
  have hpath := hI.path_iff hR (a := 0) (b := 1) (Or.inl ⟨rfl, rfl⟩) (Or.inl ⟨rfl, rfl⟩) (by omega)
  constructor
  · intro hflow
    have h01 := hpath.2 hflow
    have hne : ¬ (g.nodes.length = 0 ∨ g.edges.length = 0) := by
      have hz : (0 : ℕ) ∈ g.nodes := (hn 0).2 ⟨(hI.nodes 0).2 (Or.inl rfl), .here 0, h01⟩
      cases h01 with
      | step e hp =>
        rename_i v
        have hu : s.g.Useful 0 1 v := ⟨(hI.wf _ _ e).2, .step e (.here v), hp⟩
        have hge : g.Edge 0 v := (he _ _).2 ⟨e, (hn 0).1 hz, hu⟩
        rintro (h | h)
        · rw [List.length_eq_zero_iff] at h
          rw [h] at hz
          cases hz
        · rw [List.length_eq_zero_iff] at h
          unfold Graph.Edge at hge
          rw [h] at hge
          cases hge
    refine ⟨g, s.label, numOf Y, ?_, hI.shows hR hd hflow hn he⟩
    unfold graphRepr
    rw [hdraw]
    simp only [hI.ends, hp]
    rw [if_neg hne]
  · intro hflow
    have hemp : g.nodes = [] := by
      rw [List.eq_nil_iff_forall_not_mem]
      intro n hm
      obtain ⟨_, hp1, hp2⟩ := (hn n).1 hm
      apply hflow
      apply hpath.1
      exact Arch.Graph.Path.trans hp1 hp2
    unfold graphRepr
    rw [hdraw]
    simp only [hI.ends, hp, hemp]
    rw [List.length_nil, if_pos (Or.inl rfl)]

/-! ## The cases of the theorems -/

/-- Two of the topologies of the package, and one with a single edge. -/
def exSetup : Setup where
  valid := ["Res".toList, "Seq".toList, "One".toList, "conv".toList, "id".toList, "zero".toList]
  topos := [("Res".toList, [(1, 2), (1, 3), (2, 3)]), ("Seq".toList, [(1, 2), (2, 3)]),
    ("One".toList, [(1, 2)])]

theorem exSensible : ∀ t es, (t, es) ∈ exSetup.topos → Sensible es := by
  intro t es h
  simp only [exSetup, List.mem_cons, Prod.mk.injEq, List.not_mem_nil, or_false] at h
  rcases h with ⟨_, rfl⟩ | ⟨_, rfl⟩ | ⟨_, rfl⟩
  · exact ⟨by decide, ⟨1, by decide, by simp⟩, ⟨3, by decide, by simp⟩, ⟨id, by decide⟩, by decide⟩
  · exact ⟨by decide, ⟨1, by decide, by simp⟩, ⟨3, by decide, by simp⟩, ⟨id, by decide⟩, by decide⟩
  · exact ⟨by decide, ⟨1, by decide, by simp⟩, ⟨2, by decide, by simp⟩, ⟨id, by decide⟩, by decide⟩

/-- `(S Res (O conv) (O id) (S Seq (O conv) (O id)))`. -/
def exKids : Forest :=
  .leaf "Res".toList (.node ['O'] (.leaf "conv".toList .nil) (.node ['O'] (.leaf "id".toList .nil)
    (.node ['S'] (.leaf "Seq".toList (.node ['O'] (.leaf "conv".toList .nil)
      (.node ['O'] (.leaf "id".toList .nil) .nil))) .nil)))

theorem exKids_functions : exKids.functions exSetup.isTopology = [.comp "Res".toList
    [.op "conv".toList, .op "id".toList, .comp "Seq".toList [.op "conv".toList, .op "id".toList]]] :=
  rfl

example : exSetup.Lexical ∧ Name ['S'] ∧ Clean exKids := by
  refine ⟨?_, ?_, ?_⟩
  · unfold Setup.Lexical Name exSetup
    decide
  · unfold Name
    decide
  · simp only [Clean, exKids, ne_eq, reduceCtorEq, not_false_eq_true]
    and_intros <;> trivial

example : Fits exSetup (.comp "Res".toList
    [.op "conv".toList, .op "id".toList, .comp "Seq".toList [.op "conv".toList, .op "id".toList]]) := by
  simp only [Fits, FitsAll]
  refine ⟨by decide, ⟨[(1, 2), (1, 3), (2, 3)], by decide, rfl⟩, ⟨by decide, by decide⟩,
    ⟨by decide, by decide⟩, ⟨by decide, ⟨[(1, 2), (2, 3)], by decide, rfl⟩, ⟨by decide, by decide⟩,
    ⟨by decide, by decide⟩, trivial⟩, trivial⟩

example : Flow exSetup (leaves exSetup.edges (.comp "Res".toList
    [.op "conv".toList, .op "id".toList, .comp "Seq".toList [.op "conv".toList, .op "id".toList]])
    [] .source .sink) .source .sink :=
  .single ⟨⟨[1], "id".toList, .source, .sink⟩, by decide +kernel, by decide, rfl, rfl⟩

/-- The graph of the example: one operation after the other, and a plain connection beside them. -/
example : ((graphRepr exSetup (fun _ => [0, 2, 8, 1]) (treeText ['S'] exKids)).map fun r =>
    (r.1.nodes, r.1.edges, [r.2 0, r.2 1, r.2 2, r.2 8])) =
    some ([0, 1, 2, 8], [(0, 2), (0, 1), (2, 8), (8, 1)], [some "input".toList, some "output".toList,
      some "conv".toList, some "conv".toList]) := by
  decide +kernel

/-- Some function gives topological orders: `Sorts` is what is asked of `nx.topological_sort`. -/
example : ∃ order, Sorts order := by
  classical
  exact ⟨fun g => if h : ∃ o, Arch.Topological g o then h.choose else [],
    fun g h => by simp only [h, dif_pos]; exact h.choose_spec⟩

/-- **C124** fails for an architecture that is a single operation: its text describes a connection from
the input to the output, but its value is an exception. -/
theorem C124_single_operation_fails :
    ∃ (S : Setup) (kids : Forest) (f : Func), S.Lexical ∧ (∀ t es, (t, es) ∈ S.topos → Sensible es) ∧
      Clean kids ∧ kids.functions S.isTopology = [f] ∧ Fits S f ∧
      Flow S (leaves S.edges f [] .source .sink) .source .sink ∧
      ∀ order, graphRepr S order (treeText ['S'] kids) = none := by
  refine ⟨exSetup, .leaf "conv".toList .nil, .op "conv".toList, ?_, exSensible, ?_, rfl, ?_, ?_, ?_⟩
  · unfold Setup.Lexical Name exSetup
    decide
  · simp only [Clean, Name]
    decide
  · simp only [Fits]
    decide
  · refine .single ⟨⟨[], "conv".toList, .source, .sink⟩, by simp [leaves], by decide, rfl, rfl⟩
  · intro order
    have : drawTree exSetup (treeText ['S'] (.leaf "conv".toList .nil)) = none := by
      cases h : drawTree exSetup (treeText ['S'] (.leaf "conv".toList .nil)) with
      | none => rfl
      | some s =>
        have h2 : (drawTree exSetup (treeText ['S'] (.leaf "conv".toList .nil))).isSome = false := by
          decide +kernel
        rw [h] at h2
        cases h2
    unfold graphRepr
    rw [this]

/-- A topology whose edges are not in order. -/
def oddSetup : Setup where
  valid := ["Odd".toList, "One".toList, "conv".toList, "zero".toList]
  topos := [("Odd".toList, [(1, 4), (1, 2), (3, 4), (2, 3)]), ("One".toList, [(1, 2)])]

/-- `(S Odd (O conv) (O zero) (O zero) (S One (O conv)))`. -/
def oddKids : Forest :=
  .leaf "Odd".toList (.node ['O'] (.leaf "conv".toList .nil) (.node ['O'] (.leaf "zero".toList .nil)
    (.node ['O'] (.leaf "zero".toList .nil) (.node ['S'] (.leaf "One".toList
      (.node ['O'] (.leaf "conv".toList .nil) .nil)) .nil))))

/-- **C124** fails for a topology that lists an edge before one that ends where it begins, even if there
are no cycles: when both neighbours of an argument are "no connection" and are read before it, its node
is lost, and the value is an exception although another operation connects the input with the output. -/
theorem C124_edge_order_fails :
    ∃ (S : Setup) (kids : Forest) (t : Str) (args : List Func), S.Lexical ∧
      (∀ t es, (t, es) ∈ S.topos → es.Nodup ∧ (∃! a, a ∈ es.map (·.1) ∧ a ∉ es.map (·.2)) ∧
        (∃! b, b ∈ es.map (·.2) ∧ b ∉ es.map (·.1)) ∧ ∃ r : ℕ → ℕ, ∀ e ∈ es, r e.1 < r e.2) ∧
      Clean kids ∧ kids.functions S.isTopology = [.comp t args] ∧ Fits S (.comp t args) ∧
      Flow S (leaves S.edges (.comp t args) [] .source .sink) .source .sink ∧
      ∀ order, graphRepr S order (treeText ['S'] kids) = none := by
  refine ⟨oddSetup, oddKids, "Odd".toList, [.op "conv".toList, .op "zero".toList, .op "zero".toList,
    .comp "One".toList [.op "conv".toList]], ?_, ?_, ?_, rfl, ?_, ?_, ?_⟩
  · unfold Setup.Lexical Name oddSetup
    decide
  · intro t es h
    simp only [oddSetup, List.mem_cons, Prod.mk.injEq, List.not_mem_nil, or_false] at h
    rcases h with ⟨_, rfl⟩ | ⟨_, rfl⟩
    · exact ⟨by decide, ⟨1, by decide, by simp⟩, ⟨4, by decide, by simp⟩, ⟨id, by decide⟩⟩
    · exact ⟨by decide, ⟨1, by decide, by simp⟩, ⟨2, by decide, by simp⟩, ⟨id, by decide⟩⟩
  · simp only [Clean, oddKids, ne_eq, reduceCtorEq, not_false_eq_true]
    and_intros <;> trivial
  · simp only [Fits, FitsAll]
    refine ⟨by decide, ⟨[(1, 4), (1, 2), (3, 4), (2, 3)], by decide, rfl⟩, ⟨by decide, by decide⟩,
      ⟨by decide, by decide⟩, ⟨by decide, by decide⟩, ⟨by decide, ⟨[(1, 2)], by decide, rfl⟩,
      ⟨by decide, by decide⟩, trivial⟩, trivial⟩
  · refine .single ⟨⟨[0], "conv".toList, .source, .sink⟩, ?_, by decide, rfl, rfl⟩
    decide +kernel
  · intro order
    have : drawTree oddSetup (treeText ['S'] oddKids) = none := by
      cases h : drawTree oddSetup (treeText ['S'] oddKids) with
      | none => rfl
      | some s =>
        have h2 : (drawTree oddSetup (treeText ['S'] oddKids)).isSome = false := by
          decide +kernel
        rw [h] at h2
        cases h2
    unfold graphRepr
    rw [this]

end Verif.Repr
