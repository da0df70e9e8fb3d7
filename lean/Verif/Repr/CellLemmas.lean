import Verif.Repr.Spec
import Mathlib.Data.List.Sort
import Mathlib.Tactic.Linarith

/-! # Lemmas on the edges of topologies and on adding edges -/

namespace Verif.Repr

open Verif.Gram (Str Func)
open Verif.Arch (Graph)

theorem dedup_single {l : List ℕ} {a : ℕ} (h : ∀ x, x ∈ l ↔ x = a) : l.dedup = [a] := by
  have hn := List.nodup_dedup l
  have hm : ∀ x, x ∈ l.dedup ↔ x = a := fun x => by rw [List.mem_dedup, h]
  revert hn hm
  generalize l.dedup = d
  intro hn hm
  match d with
  | [] => exact absurd ((hm a).2 rfl) (by simp)
  | [x] => rw [(hm x).1 (by simp)]
  | x :: y :: r =>
    have h1 := (hm x).1 (by simp)
    have h2 := (hm y).1 (by simp)
    subst h1 h2
    simp at hn

theorem endpoints_eq {es : List (ℕ × ℕ)} {a b : ℕ}
    (ha : ∀ x, (x ∈ es.map (·.1) ∧ x ∉ es.map (·.2)) ↔ x = a)
    (hb : ∀ x, (x ∈ es.map (·.2) ∧ x ∉ es.map (·.1)) ↔ x = b) : endpoints es = some (a, b) := by
  unfold endpoints
  rw [dedup_single (a := a) (fun x => by rw [List.mem_filter]; simpa using ha x),
    dedup_single (a := b) (fun x => by rw [List.mem_filter]; simpa using hb x)]

/-! ## The nodes of edges -/

theorem edgeNode_eq {es : List (ℕ × ℕ)} (hn : es.Nodup) {e : ℕ × ℕ} (he : e ∈ es) :
    edgeNode es e = es.idxOf e + 2 := by
  obtain ⟨i, hi, rfl⟩ := List.getElem_of_mem he
  unfold edgeNode
  have h1 : es.idxOf es[i] = i := hn.idxOf_getElem i hi
  have hl : es.length - 1 - i < es.reverse.length := by simp; omega
  have h2 : es.reverse[es.length - 1 - i] = es[i] := by
    rw [List.getElem_reverse]
    congr 1
    omega
  have h3 : es.reverse.idxOf es[i] = es.length - 1 - i := by
    rw [← h2]
    exact (List.nodup_reverse.2 hn).idxOf_getElem _ hl
  rw [h1, h3]
  omega

theorem edgeNode_inj {es : List (ℕ × ℕ)} (hn : es.Nodup) {e e' : ℕ × ℕ} (he : e ∈ es)
    (he' : e' ∈ es) (h : edgeNode es e = edgeNode es e') : e = e' := by
  rw [edgeNode_eq hn he, edgeNode_eq hn he'] at h
  exact (List.idxOf_inj he).1 (by omega)

theorem two_le_edgeNode (es : List (ℕ × ℕ)) (e : ℕ × ℕ) : 2 ≤ edgeNode es e := by
  unfold edgeNode
  omega

theorem le_foldl_max (l : List ℕ) (m : ℕ) : m ≤ l.foldl max m ∧ ∀ x ∈ l, x ≤ l.foldl max m := by
  induction l generalizing m with
  | nil => simp
  | cons a l ih =>
    obtain ⟨h1, h2⟩ := ih (max m a)
    simp only [List.foldl_cons]
    refine ⟨by omega, ?_⟩
    intro x hx
    rcases List.mem_cons.1 hx with rfl | hx
    · omega
    · exact h2 x hx

theorem mem_nodeEdges {es : List (ℕ × ℕ)} {src tgt x y : ℕ} :
    (x, y) ∈ nodeEdges es src tgt ↔
      (∃ e ∈ es, e.1 = src ∧ x = 0 ∧ y = edgeNode es e) ∨
      (∃ e ∈ es, e.2 = tgt ∧ x = edgeNode es e ∧ y = 1) ∨
      ∃ e ∈ es, ∃ e' ∈ es, e'.2 = e.1 ∧ x = edgeNode es e' ∧ y = edgeNode es e := by
  simp only [nodeEdges, List.mem_flatMap, List.mem_append, List.mem_map, List.mem_filter,
    decide_eq_true_eq]
  constructor
  · rintro ⟨e, he, (h | h) | ⟨e', ⟨he', h⟩, h'⟩⟩
    · split_ifs at h with hs
      · simp only [List.mem_singleton, Prod.mk.injEq] at h
        exact Or.inl ⟨e, he, hs, h⟩
      · simp at h
    · split_ifs at h with hs
      · simp only [List.mem_singleton, Prod.mk.injEq] at h
        exact Or.inr (Or.inl ⟨e, he, hs, h⟩)
      · simp at h
    · simp only [Prod.mk.injEq] at h'
      exact Or.inr (Or.inr ⟨e, he, e', he', h, h'.1.symm, h'.2.symm⟩)
  · rintro (⟨e, he, hs, rfl, rfl⟩ | ⟨e, he, hs, rfl, rfl⟩ | ⟨e, he, e', he', h, rfl, rfl⟩)
    · exact ⟨e, he, Or.inl (Or.inl (by simp [hs]))⟩
    · exact ⟨e, he, Or.inl (Or.inr (by simp [hs]))⟩
    · exact ⟨e, he, Or.inr ⟨e', ⟨he', h⟩, rfl⟩⟩

/-- The two ends of a topology. -/
structure Ends (es : List (ℕ × ℕ)) (src tgt : ℕ) : Prop where
  source : ∀ x, (x ∈ es.map (·.1) ∧ x ∉ es.map (·.2)) ↔ x = src
  sink : ∀ x, (x ∈ es.map (·.2) ∧ x ∉ es.map (·.1)) ↔ x = tgt

theorem Sensible.ends {es : List (ℕ × ℕ)} (h : Sensible es) : ∃ src tgt, Ends es src tgt := by
  obtain ⟨a, ha, ha'⟩ := h.source
  obtain ⟨b, hb, hb'⟩ := h.sink
  exact ⟨a, b, fun x => ⟨fun hx => ha' x hx, fun hx => hx ▸ ha⟩,
    fun x => ⟨fun hx => hb' x hx, fun hx => hx ▸ hb⟩⟩

theorem endpoints_nodeEdges {es : List (ℕ × ℕ)} {src tgt : ℕ}
    (h : Ends es src tgt) : endpoints (nodeEdges es src tgt) = some (0, 1) := by
  have m1 : ∀ x, x ∈ (nodeEdges es src tgt).map (·.1) ↔ ∃ y, (x, y) ∈ nodeEdges es src tgt := by
    intro x; simp
  have m2 : ∀ x, x ∈ (nodeEdges es src tgt).map (·.2) ↔ ∃ y, (y, x) ∈ nodeEdges es src tgt := by
    intro x; simp
  have t := two_le_edgeNode es
  -- every operation has a predecessor and a successor
  have hp : ∀ e ∈ es, ∃ y, (y, edgeNode es e) ∈ nodeEdges es src tgt := by
    intro e he
    by_cases hs : e.1 = src
    · exact ⟨0, mem_nodeEdges.2 (Or.inl ⟨e, he, hs, rfl, rfl⟩)⟩
    · have : e.1 ∈ es.map (·.2) := by
        by_contra hc
        exact hs ((h.source e.1).1 ⟨List.mem_map_of_mem he, hc⟩)
      obtain ⟨e', he', h'⟩ := List.mem_map.1 this
      exact ⟨edgeNode es e', mem_nodeEdges.2 (Or.inr (Or.inr ⟨e, he, e', he', h', rfl, rfl⟩))⟩
  have hq : ∀ e ∈ es, ∃ y, (edgeNode es e, y) ∈ nodeEdges es src tgt := by
    intro e he
    by_cases hs : e.2 = tgt
    · exact ⟨1, mem_nodeEdges.2 (Or.inr (Or.inl ⟨e, he, hs, rfl, rfl⟩))⟩
    · have : e.2 ∈ es.map (·.1) := by
        by_contra hc
        exact hs ((h.sink e.2).1 ⟨List.mem_map_of_mem he, hc⟩)
      obtain ⟨e', he', h'⟩ := List.mem_map.1 this
      exact ⟨edgeNode es e', mem_nodeEdges.2 (Or.inr (Or.inr ⟨e', he', e, he, h'.symm, rfl, rfl⟩))⟩
  refine endpoints_eq (fun x => ?_) (fun x => ?_)
  · rw [m1, m2]
    constructor
    · rintro ⟨⟨y, hy⟩, h2⟩
      rcases mem_nodeEdges.1 hy with ⟨e, he, _, h1, _⟩ | ⟨e, he, _, rfl, _⟩ | ⟨_, _, e, he, _, rfl, _⟩
      · exact h1
      · exact absurd (hp e he) h2
      · exact absurd (hp e he) h2
    · rintro rfl
      obtain ⟨hs, _⟩ := (h.source src).2 rfl
      obtain ⟨e, he, rfl⟩ := List.mem_map.1 hs
      refine ⟨⟨_, mem_nodeEdges.2 (Or.inl ⟨e, he, rfl, rfl, rfl⟩)⟩, ?_⟩
      rintro ⟨y, hy⟩
      rcases mem_nodeEdges.1 hy with ⟨e, he, _, _, h1⟩ | ⟨e, he, _, _, h1⟩ | ⟨e, he, _, _, _, _, h1⟩
      · have := t e; omega
      · omega
      · have := t e; omega
  · rw [m1, m2]
    constructor
    · rintro ⟨⟨y, hy⟩, h2⟩
      rcases mem_nodeEdges.1 hy with ⟨e, he, _, _, rfl⟩ | ⟨e, he, _, _, h1⟩ | ⟨e, he, _, _, _, _, rfl⟩
      · exact absurd (hq e he) h2
      · exact h1
      · exact absurd (hq e he) h2
    · rintro rfl
      obtain ⟨hs, _⟩ := (h.sink tgt).2 rfl
      obtain ⟨e, he, rfl⟩ := List.mem_map.1 hs
      refine ⟨⟨_, mem_nodeEdges.2 (Or.inr (Or.inl ⟨e, he, rfl, rfl, rfl⟩))⟩, ?_⟩
      rintro ⟨y, hy⟩
      rcases mem_nodeEdges.1 hy with ⟨e, he, _, h1, _⟩ | ⟨e, he, _, h1, _⟩ | ⟨_, _, e, he, _, h1, _⟩
      · omega
      · have := t e; omega
      · have := t e; omega

theorem cell_make {es : List (ℕ × ℕ)} {src tgt : ℕ} (h : Ends es src tgt) :
    Cell.make es = some (some ⟨nodeEdges es src tgt, es.map (edgeNode es), (0, 1)⟩) := by
  have h0 : es ≠ [] := by
    rintro rfl
    have := ((h.source src).2 rfl).1
    simp at this
  unfold Cell.make
  rw [if_neg h0, endpoints_eq h.source h.sink]
  simp only
  rw [endpoints_nodeEdges h]

theorem cells_lookup : ∀ {ts : List (Str × List (ℕ × ℕ))}, (∀ t es, (t, es) ∈ ts → Sensible es) →
    ∃ cs, cells ts = some cs ∧
      (∀ t, ts.lookup t = none → cs.lookup t = none) ∧
      ∀ t es, ts.lookup t = some es → Sensible es ∧ ∀ src tgt, Ends es src tgt →
        cs.lookup t = some (some ⟨nodeEdges es src tgt, es.map (edgeNode es), (0, 1)⟩)
  | [], _ => ⟨[], rfl, by simp, by simp⟩
  | (t, es) :: ts, h => by
    obtain ⟨cs, hc, h1, h2⟩ := cells_lookup (ts := ts) fun t es ht => h t es (by simp [ht])
    have hs := h t es (by simp)
    obtain ⟨src, tgt, he⟩ := hs.ends
    refine ⟨(t, _) :: cs, by rw [cells, cell_make he, hc], ?_, ?_⟩
    · intro t' ht
      rw [List.lookup_cons] at ht ⊢
      cases hb : (t' == t)
      · rw [hb] at ht; exact h1 t' ht
      · rw [hb] at ht; simp at ht
    · intro t' es' ht
      rw [List.lookup_cons] at ht
      simp only [List.lookup_cons]
      cases hb : (t' == t)
      · rw [hb] at ht; exact h2 t' es' ht
      · rw [hb] at ht
        simp only [Option.some.injEq] at ht
        subst ht
        refine ⟨hs, fun src' tgt' he' => ?_⟩
        have e1 : src' = src := (he.source src').1 ((he'.source src').2 rfl)
        have e2 : tgt' = tgt := (he.sink tgt').1 ((he'.sink tgt').2 rfl)
        rw [e1, e2]

/-! ## Adding edges -/

theorem mem_addEdge {g : Graph} {e : ℕ × ℕ} {n : ℕ} :
    n ∈ (addEdge g e).nodes ↔ n ∈ g.nodes ∨ n = e.1 ∨ n = e.2 := by
  have add : ∀ (l : List ℕ) (x : ℕ), n ∈ (if x ∈ l then l else l ++ [x]) ↔ n ∈ l ∨ n = x := by
    intro l x
    split_ifs with hx
    · exact ⟨Or.inl, fun h => h.elim id fun h => h ▸ hx⟩
    · simp
  unfold addEdge
  simp only
  rw [add, add, or_assoc]

theorem edge_addEdge {g : Graph} {e : ℕ × ℕ} {a b : ℕ} :
    (addEdge g e).Edge a b ↔ g.Edge a b ∨ (a, b) = e := by
  unfold addEdge Graph.Edge
  simp only
  split_ifs with h1
  · constructor
    · exact Or.inl
    · rintro (h | rfl)
      · exact h
      · exact h1
  · simp

theorem nodup_addEdge {g : Graph} {e : ℕ × ℕ} (h : g.nodes.Nodup) : (addEdge g e).nodes.Nodup := by
  have add : ∀ (l : List ℕ) (x : ℕ), l.Nodup → (if x ∈ l then l else l ++ [x]).Nodup := by
    intro l x hl
    split_ifs with hx
    · exact hl
    · rw [List.nodup_append]
      exact ⟨hl, by simp, fun a ha b hb => by
        rw [List.mem_singleton] at hb; subst hb; rintro rfl; exact hx ha⟩
  exact add _ _ (add _ _ h)

theorem mem_addEdges {es : List (ℕ × ℕ)} : ∀ {g : Graph} {n : ℕ},
    n ∈ (addEdges g es).nodes ↔ n ∈ g.nodes ∨ ∃ e ∈ es, n = e.1 ∨ n = e.2 := by
  induction es with
  | nil => intro g n; simp [addEdges]
  | cons e es ih =>
    intro g n
    have : addEdges g (e :: es) = addEdges (addEdge g e) es := rfl
    rw [this, ih, mem_addEdge]
    simp only [List.mem_cons, exists_eq_or_imp, or_assoc]

theorem edge_addEdges {es : List (ℕ × ℕ)} : ∀ {g : Graph} {a b : ℕ},
    (addEdges g es).Edge a b ↔ g.Edge a b ∨ (a, b) ∈ es := by
  induction es with
  | nil => intro g a b; simp [addEdges]
  | cons e es ih =>
    intro g a b
    have : addEdges g (e :: es) = addEdges (addEdge g e) es := rfl
    rw [this, ih, edge_addEdge, List.mem_cons]
    tauto

theorem nodup_addEdges {es : List (ℕ × ℕ)} : ∀ {g : Graph}, g.nodes.Nodup →
    (addEdges g es).nodes.Nodup := by
  induction es with
  | nil => intro g h; exact h
  | cons e es ih => intro g h; exact ih (g := addEdge g e) (nodup_addEdge h)

theorem mem_remove {g : Graph} {n m : ℕ} : m ∈ (g.removeNode n).nodes ↔ m ∈ g.nodes ∧ m ≠ n := by
  simp [Graph.removeNode]

theorem edge_remove {g : Graph} {n u v : ℕ} :
    (g.removeNode n).Edge u v ↔ g.Edge u v ∧ u ≠ n ∧ v ≠ n := by
  simp [Graph.removeNode, Graph.Edge]

theorem nodup_remove {g : Graph} {n : ℕ} (h : g.nodes.Nodup) : (g.removeNode n).nodes.Nodup :=
  List.Nodup.filter _ h

theorem mem_preds' {g : Graph} {u n : ℕ} : u ∈ g.preds n ↔ g.Edge u n := by
  unfold Graph.preds Graph.Edge
  simp

theorem mem_succs' {g : Graph} {u n : ℕ} : u ∈ g.succs n ↔ g.Edge n u := by
  unfold Graph.succs Graph.Edge
  simp

/-! ## Orders -/

/-- A graph without cycles has a topological order. -/
theorem exists_topological {g : Graph} (hn : g.nodes.Nodup) (hwf : g.WF) {r : ℕ → ℕ}
    (h : ∀ a b, g.Edge a b → r a < r b) : ∃ o, Arch.Topological g o := by
  have hs : (g.nodes.insertionSort (fun a b => r a ≤ r b)).Pairwise (fun a b => r a ≤ r b) := by
    have : Std.Total (fun a b : ℕ => r a ≤ r b) := ⟨fun a b => Nat.le_total _ _⟩
    have : IsTrans ℕ (fun a b : ℕ => r a ≤ r b) := ⟨fun a b c => Nat.le_trans⟩
    exact List.pairwise_insertionSort _ _
  have hp := List.perm_insertionSort (fun a b => r a ≤ r b) g.nodes
  have hd := hp.nodup_iff.2 hn
  refine ⟨_, hd, fun n => hp.mem_iff, fun u v e => ?_⟩
  obtain ⟨hu, hv⟩ := hwf u v e
  obtain ⟨i, hi, rfl⟩ := List.getElem_of_mem (hp.mem_iff.2 hu)
  obtain ⟨j, hj, rfl⟩ := List.getElem_of_mem (hp.mem_iff.2 hv)
  rw [hd.idxOf_getElem, hd.idxOf_getElem]
  have := h _ _ e
  rcases Nat.lt_trichotomy i j with hij | rfl | hij
  · exact hij
  · omega
  · have := List.pairwise_iff_getElem.1 hs j i hj hi hij
    omega

end Verif.Repr
