import Verif.Arch.ScopeModel
import Mathlib.Data.List.Dedup

/-!
# C159: architectures of nested topologies cannot be built
-/

namespace Verif.Arch.Scope

/-- Some operation is a graph that has nodes. -/
def Ops.Nested : Ops → Prop
  | .nil => False
  | .other rest => rest.Nested
  | .graph g rest => g.nodes ≠ [] ∨ rest.Nested

/-- No operation is a graph. -/
def Ops.Flat : Ops → Prop
  | .nil => True
  | .other rest => rest.Flat
  | .graph _ _ => False

theorem childGraphs_nil {g : Net} {l : List Net} (h : childGraphs g = some l) : l = [] := by
  obtain ⟨name, scope, nodes, ops⟩ := g
  simp only [childGraphs, Option.bind_eq_some_iff] at h
  obtain ⟨o, _, h⟩ := h
  cases hc : collapse o with
  | nil => rw [hc] at h; exact (Option.some.inj h).symm
  | cons a b => rw [hc] at h; simp [sortedByName] at h

theorem collapse_cons (o : Obj) (l : List Obj) : collapse (o :: l) =
    (match o with | .one g => g.nodes | .many gs => gs.flatMap Net.nodes) ++ collapse l := by
  cases o <;> rfl

theorem childObjs_nested : ∀ (ops : Ops) (l : List Obj), childObjs ops = some l → ops.Nested →
    collapse l ≠ []
  | .nil, _, _, hn => hn.elim
  | .other rest, l, h, hn => childObjs_nested rest l (by simpa [childObjs] using h) hn
  | .graph g rest, l, h, hn => by
    simp only [childObjs] at h
    split at h
    · simp at h
    · rename_i l' hl'
      obtain ⟨r, hr, rfl⟩ := Option.map_eq_some_iff.mp h
      rw [collapse_cons, collapse_cons]
      rcases hn with hn | hn
      · simp [hn]
      · have := childObjs_nested rest r hr hn
        simp [this]

theorem childGraphs_none {name : ℕ} {scope : Option ℕ} {nodes : List ℕ} {ops : Ops} (h : ops.Nested) :
    childGraphs (.mk name scope nodes ops) = none := by
  simp only [childGraphs]
  cases hc : childObjs ops with
  | none => rfl
  | some l =>
    have := childObjs_nested ops l hc h
    simp only [Option.bind_some]
    cases hl : collapse l with
    | nil => exact absurd hl this
    | cons a b => rfl

theorem childObjs_flat : ∀ ops : Ops, ops.Flat → childObjs ops = some []
  | .nil, _ => rfl
  | .other rest, h => by simpa [childObjs] using childObjs_flat rest h
  | .graph _ _, h => h.elim

theorem childGraphs_flat {name : ℕ} {scope : Option ℕ} {nodes : List ℕ} {ops : Ops} (h : ops.Flat) :
    childGraphs (.mk name scope nodes ops) = some [] := by
  simp [childGraphs, childObjs_flat ops h, collapse, sortedByName]

theorem take_all : ∀ (n : ℕ) (o : Ops), o.length ≤ n → o.take n = o
  | 0, .nil, _ => rfl
  | 0, .other _, h => by simp [Ops.length] at h
  | 0, .graph _ _, h => by simp [Ops.length] at h
  | _ + 1, .nil, _ => rfl
  | n + 1, .other r, h => by
    rw [Ops.take, take_all n r (by simpa [Ops.length] using h)]
  | n + 1, .graph g r, h => by
    rw [Ops.take, take_all n r (by simpa [Ops.length] using h)]

/-- C159, proved for topologies whose operations are no graphs: they are built, with their name, their
scope and the nodes of their edges. -/
theorem C159_flat_partial (name : ℕ) (edges : List (ℕ × ℕ)) (vals : Ops) (hf : vals.Flat)
    (hl : vals.length = edges.length) :
    ∃ g, build name edges vals = some g ∧ g.name = name ∧ g.scope = some name ∧ g.ops = vals ∧
      ∀ n, n ∈ g.nodes ↔ ∃ e ∈ edges, n = e.1 ∨ n = e.2 := by
  refine ⟨.mk name (some name) (((edges.take vals.length).flatMap fun e => [e.1, e.2]).dedup) vals,
    ?_, rfl, rfl, rfl, ?_⟩
  · unfold build setScope
    rw [take_all _ _ (Nat.le_of_eq hl), childGraphs_flat hf]
    rfl
  · intro n
    rw [hl, List.take_length]
    simp [Net.nodes]

/-- C159 fails for every topology with an operation that is a graph with nodes, that is, for all nested
topologies: the constructor raises an exception. -/
theorem C159_nested_fails (name : ℕ) (edges : List (ℕ × ℕ)) (vals : Ops) (hn : vals.Nested)
    (hl : vals.length ≤ edges.length) : build name edges vals = none := by
  unfold build setScope
  rw [take_all _ _ hl, childGraphs_none hn]
  rfl

/-- C159 fails for `compile`, too: it raises for every graph with a nested graph that has nodes. -/
theorem C159_compile_fails (g : Net) (hn : g.ops.Nested) : compiles g = false := by
  obtain ⟨name, scope, nodes, ops⟩ := g
  have h : ops.Nested := hn
  simp only [compiles, childGraphs_none h]
  rfl

/-- An architecture in which every topology has a part for each of its edges, and at least one. -/
def Terms.length : Terms → ℕ
  | .nil => 0
  | .cons _ rest => rest.length + 1

mutual
/-- See above. -/
def Term.Proper : Term → Prop
  | .prim => True
  | .topo _ edges args => args.length = edges.length ∧ edges ≠ [] ∧ args.Proper
/-- See above. -/
def Terms.Proper : Terms → Prop
  | .nil => True
  | .cons t rest => t.Proper ∧ rest.Proper
end

/-- All parts are primitive operations. -/
def Terms.Primitive : Terms → Prop
  | .nil => True
  | .cons .prim rest => rest.Primitive
  | .cons (.topo _ _ _) _ => False

/-- The architecture is a primitive operation or one topology of primitive operations. -/
def Term.OneLevel : Term → Prop
  | .prim => True
  | .topo _ _ args => args.Primitive

theorem composeAll_length : ∀ (ts : Terms) (o : Ops), composeAll ts = some o → o.length = ts.length
  | .nil, o, h => by
    simp only [composeAll, Option.some.injEq] at h
    subst h
    rfl
  | .cons t rest, o, h => by
    simp only [composeAll] at h
    split at h
    · simp at h
    · obtain ⟨r, hr, rfl⟩ := Option.map_eq_some_iff.mp h
      simp [Ops.length, Terms.length, composeAll_length rest r hr]
    · obtain ⟨r, hr, rfl⟩ := Option.map_eq_some_iff.mp h
      simp [Ops.length, Terms.length, composeAll_length rest r hr]

theorem composeAll_primitive : ∀ ts : Terms, ts.Primitive → ∃ o, composeAll ts = some o ∧ o.Flat
  | .nil, _ => ⟨.nil, rfl, trivial⟩
  | .cons .prim rest, h => by
    obtain ⟨o, ho, hf⟩ := composeAll_primitive rest h
    exact ⟨.other o, by simp [composeAll, compose, ho], hf⟩
  | .cons (.topo _ _ _) _, h => h.elim

/-- What is built has nodes. -/
theorem compose_nodes {name : ℕ} {edges : List (ℕ × ℕ)} {args : Terms} {g : Net}
    (hp : (Term.topo name edges args).Proper) (h : compose (.topo name edges args) = some (some g)) :
    g.nodes ≠ [] := by
  obtain ⟨hl, he, _⟩ := hp
  simp only [compose, Option.bind_eq_some_iff, Option.map_eq_some_iff, Option.some.injEq] at h
  obtain ⟨vals, hv, g', hb, rfl⟩ := h
  have hlen := composeAll_length args vals hv
  unfold build setScope at hb
  obtain ⟨_, _, rfl⟩ := Option.map_eq_some_iff.mp hb
  simp only [Net.nodes]
  rw [hlen, hl, List.take_length]
  cases edges with
  | nil => exact absurd rfl he
  | cons e es =>
    intro hc
    have : e.1 ∈ (((e :: es).flatMap fun e => [e.1, e.2]).dedup) := by simp
    rw [hc] at this
    simp at this

theorem composeAll_nested : ∀ (ts : Terms) (o : Ops), ts.Proper → ¬ ts.Primitive →
    composeAll ts = some o → o.Nested
  | .nil, _, _, hn, _ => absurd trivial hn
  | .cons .prim rest, o, hp, hn, h => by
    simp only [composeAll, compose] at h
    obtain ⟨r, hr, rfl⟩ := Option.map_eq_some_iff.mp h
    exact composeAll_nested rest r hp.2 hn hr
  | .cons (.topo name edges args) rest, o, hp, _, h => by
    simp only [composeAll] at h
    split at h
    · simp at h
    · rename_i hc
      simp only [compose, Option.bind_eq_some_iff, Option.map_eq_some_iff] at hc
      obtain ⟨_, _, _, _, hc⟩ := hc
      simp at hc
    · rename_i g hc
      obtain ⟨r, hr, rfl⟩ := Option.map_eq_some_iff.mp h
      exact Or.inl (compose_nodes hp.1 hc)

/-- C159: exactly which architectures can be built: those that are one primitive operation or one
topology of primitive operations. All others raise an exception, the examples of the documentation
included. -/
theorem C159_built_iff_fails (t : Term) (hp : t.Proper) : (∃ r, compose t = some r) ↔ t.OneLevel := by
  cases t with
  | prim => exact ⟨fun _ => trivial, fun _ => ⟨_, rfl⟩⟩
  | topo name edges args =>
    constructor
    · rintro ⟨r, hr⟩
      by_contra hn
      simp only [compose, Option.bind_eq_some_iff, Option.map_eq_some_iff] at hr
      obtain ⟨vals, hv, g, hb, _⟩ := hr
      have h1 := composeAll_nested args vals hp.2.2 hn hv
      have h2 := composeAll_length args vals hv
      rw [C159_nested_fails name edges vals h1 (Nat.le_of_eq (h2.trans hp.1))] at hb
      simp at hb
    · intro h
      obtain ⟨o, ho, hf⟩ := composeAll_primitive args h
      have h2 := composeAll_length args o ho
      obtain ⟨g, hg, _⟩ := C159_flat_partial name edges o hf (by rw [h2, hp.1])
      exact ⟨some g, by simp [compose, ho, hg]⟩

/-- Non-vacuity: a residual block of primitive operations, and a sequence of two of them. -/
def exBlock : Term := .topo 1 [(1, 2), (1, 3), (2, 3)] (.cons .prim (.cons .prim (.cons .prim .nil)))

/-- See above. -/
def exNested : Term := .topo 2 [(1, 2), (2, 3)] (.cons exBlock (.cons exBlock .nil))

example : exBlock.Proper ∧ exBlock.OneLevel := by
  simp [exBlock, Term.Proper, Terms.Proper, Terms.length, Term.OneLevel, Terms.Primitive]

example : exNested.Proper ∧ ¬ exNested.OneLevel := by
  simp [exNested, exBlock, Term.Proper, Terms.Proper, Terms.length, Term.OneLevel, Terms.Primitive]

example : ¬ ∃ r, compose exNested = some r := by
  rw [C159_built_iff_fails _ (by
    simp [exNested, exBlock, Term.Proper, Terms.Proper, Terms.length])]
  simp [exNested, exBlock, Term.OneLevel, Terms.Primitive]

example : (Ops.other (.other .nil)).Flat := trivial
example : (Ops.other (.graph (.mk 1 none [1, 2] (.other .nil)) .nil)).Nested := by
  simp [Ops.Nested, Net.nodes]

end Verif.Arch.Scope
