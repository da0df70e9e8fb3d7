import Verif.Grammar.ComposeLemmas

/-!
# Architectures are the composition of functions that their tree describes (C109)
-/

namespace Verif.Gram

/-- **C109** (partial: trees in which a production without a topology of its own is above at most one
topology, see `C109_unit_production_fails`): for every tree over the grammar whose root applies a
topology to arguments, the architecture built from the text of the tree is the function that the tree
describes: the topology, applied to the functions that its arguments describe, in their order. -/
theorem C109_compose_partial (g : Grammar) (topo : IsTopology) (hg : g.Lexical) (A : Str)
    (kids : Forest) (hA : A ∈ g.nonterminals) (ho : kids.Over g)
    (hk : (∃ t args, kids = .leaf t args ∧ topo t = true ∧ args.Args topo) ∨ kids.Single topo) :
    ∃ f, kids.functions topo = [f] ∧ compose g topo (treeText A kids) = some f := by
  rcases hk with ⟨t, args, rfl, ht, hargs⟩ | hk
  · exact ⟨_, by simp [Forest.functions, ht], compose_app hg hA ht hargs ho⟩
  · exact compose_single hg hA hk ho

/-- **C109**, for a whole grammar: if every production either applies a topology to symbols that are no
topologies, or is a single primitive operation, then every parse tree of the grammar, whose root
applies a topology, is built into the function it describes. Trees may be of any size and depth. -/
theorem C109_grammar_partial (g : Grammar) (topo : IsTopology) (hg : g.Lexical)
    (hd : ∀ p ∈ g.prods, ∀ s, .t s ∈ p.rhs → s ∉ g.nonterminals)
    (hp : ∀ p ∈ g.prods, (∃ t args, p.rhs = .t t :: args ∧ topo t = true ∧
        ∀ s, .t s ∈ args → topo s = false) ∨ ∃ s, p.rhs = [.t s] ∧ topo s = false)
    (A t : Str) (syms : List Sym) (hroot : ⟨A, .t t :: syms⟩ ∈ g.prods) (ht : topo t = true)
    (kids : Forest) (hk : Derives g.Legal (.t t :: syms) kids) :
    ∃ f, kids.functions topo = [f] ∧ compose g topo (treeText A kids) = some f := by
  have hterm : ∀ p ∈ g.prods, ∀ s, .t s ∈ p.rhs → s ∈ g.terminals := by
    intro p hpm s hs
    unfold Grammar.terminals
    rw [List.mem_filter]
    refine ⟨?_, by simpa using hd p hpm s hs⟩
    rw [List.mem_dedup, List.mem_map]
    exact ⟨.t s, List.mem_flatMap.2 ⟨p, hpm, hs⟩, rfl⟩
  have hargs : ∀ s, .t s ∈ syms → topo s = false := by
    rcases hp _ hroot with ⟨t', args, he, _, ha⟩ | ⟨s, he, hs⟩
    · simp only [List.cons.injEq] at he
      rw [he.2]
      exact ha
    · simp only [List.cons.injEq, Sym.t.injEq] at he
      rw [he.1, hs] at ht
      cases ht
  obtain ⟨fs, rfl, hfs⟩ := (args_of_derives hp hk).2 t syms rfl hargs
  refine C109_compose_partial g topo hg A _ ?_ (over_of_derives hterm hk (hterm _ hroot))
    (Or.inl ⟨t, fs, rfl, ht, hfs⟩)
  simp only [Grammar.nonterminals, Grammar.lhss, List.mem_dedup, List.mem_map]
  exact ⟨_, hroot, rfl⟩

/-! ## The cases of the theorems -/

/-- A grammar of cells: two topologies, nested, and two primitive operations. -/
def exCells : Grammar :=
  ⟨['S'], [⟨['S'], [.t "Seq".toList, .nt ['S'], .nt ['O']]⟩, ⟨['S'], [.t "Res".toList, .nt ['O'], .nt ['O']]⟩,
    ⟨['O'], [.t "conv".toList]⟩, ⟨['O'], [.t "id".toList]⟩], none⟩

/-- The topologies of the examples. -/
def exTopo : IsTopology := fun s => s = "Seq".toList ∨ s = "Res".toList

/-- A tree of the grammar with a topology inside a topology. -/
def exNested : Forest :=
  .leaf "Seq".toList (.node ['S'] (.leaf "Res".toList (.node ['O'] (.leaf "conv".toList .nil)
    (.node ['O'] (.leaf "id".toList .nil) .nil))) (.node ['O'] (.leaf "conv".toList .nil) .nil))

theorem exCells_lexical : exCells.Lexical := by
  unfold Grammar.Lexical
  decide +kernel

example : ∃ f, exNested.functions exTopo = [f] ∧
    compose exCells exTopo (treeText ['S'] exNested) = some f := by
  refine C109_grammar_partial exCells exTopo exCells_lexical (by
    intro p hp s hs
    simp only [exCells, List.mem_cons, List.not_mem_nil, or_false] at hp
    rcases hp with rfl | rfl | rfl | rfl <;>
      · simp at hs
        subst hs
        decide +kernel) ?_ ['S'] "Seq".toList
    [.nt ['S'], .nt ['O']] (by simp [exCells]) (by decide) exNested ?_
  · intro p hp
    simp only [exCells, List.mem_cons, List.not_mem_nil, or_false] at hp
    rcases hp with rfl | rfl | rfl | rfl
    · exact Or.inl ⟨_, _, rfl, by decide, by simp⟩
    · exact Or.inl ⟨_, _, rfl, by decide, by simp⟩
    · exact Or.inr ⟨_, rfl, by decide⟩
    · exact Or.inr ⟨_, rfl, by decide⟩
  · refine .leaf (.node (rhs := [.t "Res".toList, .nt ['O'], .nt ['O']]) ?_
      (.leaf (.node (rhs := [.t "conv".toList]) ?_ (.leaf .nil)
        (.node (rhs := [.t "id".toList]) ?_ (.leaf .nil) .nil)))
      (.node (rhs := [.t "conv".toList]) ?_ (.leaf .nil) .nil)) <;> simp [Grammar.Legal, exCells]

/-- A topology below two unit productions meets `C109_compose_partial` as well. -/
example : (Forest.node ['A'] (.node ['B'] (.leaf "Seq".toList (.node ['O']
    (.leaf "conv".toList .nil) .nil)) .nil) .nil).Single exTopo :=
  .chain (.chain (.app (by decide) ⟨⟨by decide, trivial⟩, trivial⟩))

/-! ## Where the property fails -/

/-- A grammar with a unit production `S -> A` above nested topologies. -/
def exUnit : Grammar :=
  ⟨['S'], [⟨['S'], [.nt ['A']]⟩, ⟨['A'], [.t "Seq".toList, .nt ['B'], .nt ['O']]⟩,
    ⟨['B'], [.t "Res".toList, .nt ['O'], .nt ['O']]⟩, ⟨['O'], [.t ['x']]⟩, ⟨['O'], [.t ['y']]⟩,
    ⟨['O'], [.t ['z']]⟩], none⟩

/-- The tree `(S (A Seq (B Res (O x) (O y)) (O z)))`. -/
def exUnitTree : Forest :=
  .node ['A'] (.leaf "Seq".toList (.node ['B'] (.leaf "Res".toList (.node ['O'] (.leaf ['x'] .nil)
    (.node ['O'] (.leaf ['y'] .nil) .nil))) (.node ['O'] (.leaf ['z'] .nil) .nil))) .nil

/-- A unit production above nested topologies: the tree describes `Seq(Res(x, y), z)`; the architecture
that is built, without an error, is `Seq(Res(x, y, z))`. The code applies a topology when as many
nonterminals as topologies are open, which is not the end of its production here. -/
theorem C109_unit_production_fails :
    IsTree exUnit ['S'] (treeText ['S'] exUnitTree) ∧ exUnit.Lexical ∧
    exUnitTree.functions exTopo =
      [.comp "Seq".toList [.comp "Res".toList [.op ['x'], .op ['y']], .op ['z']]] ∧
    compose exUnit exTopo (treeText ['S'] exUnitTree) =
      some (.comp "Seq".toList [.comp "Res".toList [.op ['x'], .op ['y'], .op ['z']]]) := by
  refine ⟨⟨[.nt ['A']], exUnitTree, by simp [Grammar.Legal, exUnit], ?_, rfl⟩, ?_, ?_, ?_⟩
  · refine .node (rhs := [.t "Seq".toList, .nt ['B'], .nt ['O']]) ?_
      (.leaf (.node (rhs := [.t "Res".toList, .nt ['O'], .nt ['O']]) ?_
      (.leaf (.node (rhs := [.t ['x']]) ?_ (.leaf .nil)
        (.node (rhs := [.t ['y']]) ?_ (.leaf .nil) .nil)))
      (.node (rhs := [.t ['z']]) ?_ (.leaf .nil) .nil))) .nil <;> simp [Grammar.Legal, exUnit]
  · unfold Grammar.Lexical
    decide +kernel
  · rfl
  · rfl

/-- A tree that is one primitive operation, `(O conv)`, is a tree of the grammar but cannot be built:
counting the arguments of the enclosing topology raises `IndexError`. -/
theorem C109_primitive_fails :
    IsTree exCells ['O'] (treeText ['O'] (.leaf "conv".toList .nil)) ∧
    compose exCells exTopo (treeText ['O'] (.leaf "conv".toList .nil)) = none := by
  refine ⟨⟨[.t "conv".toList], .leaf "conv".toList .nil, by simp [Grammar.Legal, exCells],
    .leaf .nil, rfl⟩, ?_⟩
  rfl

end Verif.Gram
