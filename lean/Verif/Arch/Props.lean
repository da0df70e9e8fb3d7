import Verif.Arch.Spec
import Mathlib.Data.List.Nodup
import Mathlib.Data.List.Perm.Subperm
import Mathlib.Order.Basic
import Mathlib.Tactic.Tauto

/-!
# Pruned architecture graphs (C96)
-/

namespace Verif.Arch

/-- `g'` is `g` without some of its nodes. -/
def Induced (g' g : Graph) : Prop :=
  (∀ n ∈ g'.nodes, n ∈ g.nodes) ∧
    ∀ u v, g'.Edge u v ↔ g.Edge u v ∧ u ∈ g'.nodes ∧ v ∈ g'.nodes

theorem Induced.refl {g : Graph} (h : g.WF) : Induced g g :=
  ⟨fun _ h => h, fun u v => ⟨fun e => ⟨e, h u v e⟩, fun e => e.1⟩⟩

theorem Induced.trans {a b c : Graph} (h1 : Induced a b) (h2 : Induced b c) : Induced a c := by
  refine ⟨fun n hn => h2.1 n (h1.1 n hn), fun u v => ?_⟩
  rw [h1.2, h2.2]
  constructor
  · tauto
  · rintro ⟨e, hu, hv⟩
    exact ⟨⟨e, h1.1 u hu, h1.1 v hv⟩, hu, hv⟩

theorem Induced.wf {a b : Graph} (h : Induced a b) : a.WF := fun u v e => ((h.2 u v).1 e).2

theorem mem_removeNode {g : Graph} {n m : ℕ} : m ∈ (g.removeNode n).nodes ↔ m ∈ g.nodes ∧ m ≠ n := by
  simp [Graph.removeNode]

theorem edge_removeNode {g : Graph} {n u v : ℕ} :
    (g.removeNode n).Edge u v ↔ g.Edge u v ∧ u ≠ n ∧ v ≠ n := by
  simp [Graph.removeNode, Graph.Edge]

theorem induced_removeNode {g : Graph} (h : g.WF) (n : ℕ) : Induced (g.removeNode n) g := by
  refine ⟨fun m hm => (mem_removeNode.1 hm).1, fun u v => ?_⟩
  rw [edge_removeNode, mem_removeNode, mem_removeNode]
  constructor
  · rintro ⟨e, hu, hv⟩
    exact ⟨e, ⟨(h u v e).1, hu⟩, (h u v e).2, hv⟩
  · rintro ⟨e, ⟨_, hu⟩, _, hv⟩
    exact ⟨e, hu, hv⟩

theorem mem_preds {g : Graph} {u n : ℕ} : u ∈ g.preds n ↔ g.Edge u n := by
  unfold Graph.preds Graph.Edge
  simp

theorem mem_succs {g : Graph} {u n : ℕ} : u ∈ g.succs n ↔ g.Edge n u := by
  unfold Graph.succs Graph.Edge
  simp

theorem no_preds {g : Graph} {n : ℕ} : (g.preds n).length = 0 ↔ ∀ u, ¬ g.Edge u n := by
  rw [List.length_eq_zero_iff, List.eq_nil_iff_forall_not_mem]
  simp only [mem_preds]

theorem no_succs {g : Graph} {n : ℕ} : (g.succs n).length = 0 ↔ ∀ u, ¬ g.Edge n u := by
  rw [List.length_eq_zero_iff, List.eq_nil_iff_forall_not_mem]
  simp only [mem_succs]

/-- A set of nodes each of which has a successor in the set or none at all. -/
def Kept (g : Graph) (K : ℕ → Prop) : Prop :=
  ∀ k, K k → k ∈ g.nodes ∧ ((∀ x, ¬ g.Edge k x) ∨ ∃ x, K x ∧ g.Edge k x)

/-- What removing a node without successors, backwards, does. -/
structure Removed (g g' : Graph) (n : ℕ) : Prop where
  induced : Induced g' g
  gone : n ∉ g'.nodes
  succ : ∀ m ∈ g'.nodes, (∃ x, g.Edge m x) → ∃ x, g'.Edge m x
  pred : ∀ m ∈ g'.nodes, ∀ p, g.Edge p m → p ∈ g'.nodes
  kept : ∀ K : ℕ → Prop, Kept g K → ¬ K n → ∀ k, K k → k ∈ g'.nodes

theorem Kept.sub {g g' : Graph} {K : ℕ → Prop} (h : Kept g K) (hi : Induced g' g)
    (hk : ∀ k, K k → k ∈ g'.nodes) : Kept g' K := by
  intro k hK
  refine ⟨hk k hK, ?_⟩
  rcases (h k hK).2 with h1 | ⟨x, hx, he⟩
  · exact Or.inl fun x e => h1 x ((hi.2 _ _).1 e).1
  · exact Or.inr ⟨x, hx, (hi.2 _ _).2 ⟨he, hk k hK, hk x hx⟩⟩

theorem length_le_of_induced {g g' : Graph} (hn' : g'.nodes.Nodup)
    (hi : Induced g' g) : g'.nodes.length ≤ g.nodes.length :=
  (List.subperm_of_subset hn' hi.1).length_le

theorem backtrack_ok (fuel : ℕ) : ∀ {g : Graph} {n : ℕ}, g.WF → g.nodes.Nodup → n ∈ g.nodes →
    (∀ x, ¬ g.Edge n x) → g.nodes.length ≤ fuel →
    ∃ g', backtrack fuel g n = some g' ∧ g'.nodes.Nodup ∧ Removed g g' n := by
  induction fuel with
  | zero =>
    intro g n _ _ hn _ hl
    have : g.nodes = [] := List.length_eq_zero_iff.1 (by omega)
    rw [this] at hn
    simp at hn
  | succ fuel ih =>
    intro g n hwf hnd hn hns hl
    have loop : ∀ (us : List ℕ) (h : Graph), Induced h (g.removeNode n) → h.nodes.Nodup →
        (∀ u ∈ us, g.Edge u n) →
        (∀ m ∈ h.nodes, (∃ x, g.Edge m x) → (∃ x, h.Edge m x) ∨ m ∈ us) →
        (∀ m ∈ h.nodes, ∀ p, g.Edge p m → p ∈ h.nodes) →
        (∀ K : ℕ → Prop, Kept g K → ¬ K n → ∀ k, K k → k ∈ h.nodes) →
        ∃ g', backtrackLoop (backtrack fuel) us h = some g' ∧ g'.nodes.Nodup ∧ Removed g g' n := by
      intro us
      induction us with
      | nil =>
        intro h hi hd _ hs hp hk
        refine ⟨h, rfl, hd, hi.trans (induced_removeNode hwf n), ?_, ?_, hp, hk⟩
        · intro hm
          exact (mem_removeNode.1 (hi.1 n hm)).2 rfl
        · intro m hm hx
          rcases hs m hm hx with h1 | h1
          · exact h1
          · simp at h1
      | cons u us ihu =>
        intro h hi hd hus hs hp hk
        simp only [backtrackLoop]
        by_cases h1 : u ∉ h.nodes
        · rw [if_pos h1]
          refine ihu h hi hd (fun x hx => hus x (by simp [hx])) ?_ hp hk
          intro m hm hx
          rcases hs m hm hx with h3 | h3
          · exact Or.inl h3
          · rcases List.mem_cons.1 h3 with rfl | h3
            · exact absurd hm h1
            · exact Or.inr h3
        rw [if_neg h1]
        by_cases h2 : 0 < (h.succs u).length
        · rw [if_pos h2]
          refine ihu h hi hd (fun x hx => hus x (by simp [hx])) ?_ hp hk
          intro m hm hx
          rcases hs m hm hx with h3 | h3
          · exact Or.inl h3
          · rcases List.mem_cons.1 h3 with rfl | h3
            · left
              obtain ⟨x, hx⟩ := List.exists_mem_of_length_pos h2
              exact ⟨x, mem_succs.1 hx⟩
            · exact Or.inr h3
        · rw [if_neg h2]
          have hu : u ∈ h.nodes := not_not.1 h1
          have hus0 : ∀ x, ¬ h.Edge u x := no_succs.1 (by omega)
          have hlen : h.nodes.length ≤ fuel := by
            have a := length_le_of_induced hd hi
            have b : (g.removeNode n).nodes.length < g.nodes.length := by
              unfold Graph.removeNode
              refine List.length_filter_lt_length_iff_exists.2 ⟨n, hn, by simp⟩
            omega
          obtain ⟨h', he, hd', hr⟩ := ih hi.wf hd hu hus0 hlen
          rw [he]
          simp only
          refine ihu h' (hr.induced.trans hi) hd' (fun x hx => hus x (by simp [hx])) ?_ ?_ ?_
          · intro m hm hx
            have hmh := hr.induced.1 m hm
            rcases hs m hmh hx with h3 | h3
            · exact Or.inl (hr.succ m hm h3)
            · rcases List.mem_cons.1 h3 with rfl | h3
              · exact absurd hm hr.gone
              · exact Or.inr h3
          · intro m hm p hpm
            have hmh := hr.induced.1 m hm
            have hph := hp m hmh p hpm
            refine hr.pred m hm p ?_
            have e1 : (g.removeNode n).Edge p m := by
              rw [edge_removeNode]
              exact ⟨hpm, fun e => (mem_removeNode.1 (hi.1 p hph)).2 e,
                fun e => (mem_removeNode.1 (hi.1 m hmh)).2 e⟩
            exact (hi.2 p m).2 ⟨e1, hph, hmh⟩
          · intro K hK hKn
            have hsub := hk K hK hKn
            have hK' := hK.sub (hi.trans (induced_removeNode hwf n)) hsub
            refine hr.kept K hK' ?_
            intro hKu
            rcases (hK u hKu).2 with h3 | ⟨x, hx, he⟩
            · exact h3 n (hus u (by simp))
            · exact hus0 x (((hi.trans (induced_removeNode hwf n)).2 u x).2
                ⟨he, hu, hsub x hx⟩)
    refine loop (g.preds n).reverse (g.removeNode n) (Induced.refl (induced_removeNode hwf n).wf)
      (List.Nodup.filter _ hnd) ?_ ?_ ?_ ?_
    · intro u hu
      exact mem_preds.1 (List.mem_reverse.1 hu)
    · rintro m hm ⟨x, hx⟩
      by_cases hxn : x = n
      · subst hxn
        exact Or.inr (List.mem_reverse.2 (mem_preds.2 hx))
      · exact Or.inl ⟨x, edge_removeNode.2 ⟨hx, (mem_removeNode.1 hm).2, hxn⟩⟩
    · intro m hm p hpm
      refine mem_removeNode.2 ⟨(hwf p m hpm).1, ?_⟩
      rintro rfl
      exact hns m hpm
    · intro K hK hKn k hKk
      refine mem_removeNode.2 ⟨(hK k hKk).1, ?_⟩
      rintro rfl
      exact hKn hKk

/-! ## The loop over the nodes -/

/-- What holds of the nodes the loop has passed. -/
structure Passed (g : Graph) (src tgt : ℕ) (done : List ℕ) (h : Graph) : Prop where
  induced : Induced h g
  nodup : h.nodes.Nodup
  pred : ∀ m ∈ done, m ∈ h.nodes → m = src ∨ ∃ p, h.Edge p m
  succ : ∀ m ∈ done, m ∈ h.nodes → m = tgt ∨ ∃ x, h.Edge m x
  kept : ∀ k, g.Useful src tgt k → k ∈ h.nodes

theorem Graph.Path.append {g : Graph} {u v w : ℕ} (h : g.Path u v) (e : g.Edge v w) :
    g.Path u w := by
  induction h with
  | here u => exact .step e (.here _)
  | step e' _ ih => exact .step e' (ih e)

theorem Graph.Path.mem {g : Graph} (hwf : g.WF) {u v : ℕ} (h : g.Path u v) (hv : v ∈ g.nodes) :
    u ∈ g.nodes := by
  cases h with
  | here => exact hv
  | step e _ => exact (hwf _ _ e).1

/-- A path ends with an edge or is empty. -/
theorem Graph.Path.last {g : Graph} {u v : ℕ} (h : g.Path u v) :
    u = v ∨ ∃ p, g.Path u p ∧ g.Edge p v := by
  induction h with
  | here u => exact Or.inl rfl
  | @step u v w e h ih =>
    right
    rcases ih with rfl | ⟨p, hp, he⟩
    · exact ⟨u, .here u, e⟩
    · exact ⟨p, .step e hp, he⟩

theorem pruneLoop_ok {g : Graph} {src tgt : ℕ} {order : List ℕ} (hwf : g.WF)
    (ht : Topological g order) (hsink : ∀ x, ¬ g.Edge tgt x) (fuel : ℕ)
    (hfuel : g.nodes.length ≤ fuel) (ns : List ℕ) :
    ∀ (done : List ℕ) (h : Graph), order = done ++ ns → Passed g src tgt done h →
      ∃ g', pruneLoop fuel src tgt ns h = some g' ∧ Passed g src tgt order g' := by
  induction ns with
  | nil =>
    intro done h ho hp
    refine ⟨h, rfl, ?_⟩
    rw [ho, List.append_nil]
    exact hp
  | cons n ns ih =>
    intro done h ho hp
    have ho' : order = (done ++ [n]) ++ ns := by simp [ho]
    have hback : ∀ m ∈ done, ¬ g.Edge n m := by
      intro m hm he
      have h1 := ht.forward n m he
      have hnd := ht.nodup
      rw [ho] at h1 hnd
      have hn : n ∉ done := fun hn => (List.nodup_append.1 hnd).2.2 n hn n (by simp) rfl
      rw [List.idxOf_append_of_notMem hn, List.idxOf_append_of_mem hm] at h1
      have := List.idxOf_lt_length_iff.2 hm
      omega
    have huse : ∀ k, g.Useful src tgt k → (k = src ∨ ∃ p, g.Useful src tgt p ∧ g.Edge p k) ∧
        (k = tgt ∨ ∃ x, g.Useful src tgt x ∧ g.Edge k x) := by
      rintro k ⟨h1, h2, h3⟩
      constructor
      · rcases h2.last with rfl | ⟨p, hp, he⟩
        · exact Or.inl rfl
        · exact Or.inr ⟨p, ⟨(hwf p k he).1, hp, .step he h3⟩, he⟩
      · cases h3 with
        | here => exact Or.inl rfl
        | step e h3 => exact Or.inr ⟨_, ⟨(hwf _ _ e).2, h2.append e, h3⟩, e⟩
    simp only [pruneLoop]
    split_ifs with h1 h2 h3
    · -- a node without predecessors
      obtain ⟨h2a, h2b⟩ := h2
      have h2b := no_preds.1 h2b
      refine ih (done ++ [n]) _ ho' ⟨(induced_removeNode hp.induced.wf n).trans hp.induced,
        List.Nodup.filter _ hp.nodup, ?_, ?_, ?_⟩
      · intro m hm hmn
        obtain ⟨hm1, hm2⟩ := mem_removeNode.1 hmn
        have hmd : m ∈ done := by simpa [hm2] using hm
        rcases hp.pred m hmd hm1 with e | ⟨p, e⟩
        · exact Or.inl e
        · refine Or.inr ⟨p, edge_removeNode.2 ⟨e, ?_, hm2⟩⟩
          rintro rfl
          exact hback m hmd ((hp.induced.2 _ _).1 e).1
      · intro m hm hmn
        obtain ⟨hm1, hm2⟩ := mem_removeNode.1 hmn
        have hmd : m ∈ done := by simpa [hm2] using hm
        rcases hp.succ m hmd hm1 with e | ⟨x, e⟩
        · exact Or.inl e
        · refine Or.inr ⟨x, edge_removeNode.2 ⟨e, hm2, ?_⟩⟩
          rintro rfl
          exact h2b m e
      · intro k hk
        refine mem_removeNode.2 ⟨hp.kept k hk, ?_⟩
        rintro rfl
        rcases (huse k hk).1 with e | ⟨p, hpk, e⟩
        · exact h2a e
        · exact h2b p ((hp.induced.2 _ _).2 ⟨e, hp.kept p hpk, h1⟩)
    · -- a node without successors
      obtain ⟨h3a, h3b⟩ := h3
      have h3b := no_succs.1 h3b
      obtain ⟨h', he, hd', hr⟩ := backtrack_ok fuel hp.induced.wf hp.nodup h1 h3b
        (Nat.le_trans (length_le_of_induced hp.nodup hp.induced) hfuel)
      rw [he]
      simp only
      refine ih (done ++ [n]) _ ho' ⟨hr.induced.trans hp.induced, hd', ?_, ?_, ?_⟩
      · intro m hm hmn
        have hm1 := hr.induced.1 m hmn
        have hmd : m ∈ done := by
          rcases List.mem_append.1 hm with h | h
          · exact h
          · rw [List.mem_singleton.1 h] at hmn
            exact absurd hmn hr.gone
        rcases hp.pred m hmd hm1 with e | ⟨p, e⟩
        · exact Or.inl e
        · exact Or.inr ⟨p, (hr.induced.2 _ _).2 ⟨e, hr.pred m hmn p e, hmn⟩⟩
      · intro m hm hmn
        have hm1 := hr.induced.1 m hmn
        have hmd : m ∈ done := by
          rcases List.mem_append.1 hm with h | h
          · exact h
          · rw [List.mem_singleton.1 h] at hmn
            exact absurd hmn hr.gone
        rcases hp.succ m hmd hm1 with e | e
        · exact Or.inl e
        · exact Or.inr (hr.succ m hmn e)
      · refine hr.kept (g.Useful src tgt) ?_ ?_
        · intro k hk
          refine ⟨hp.kept k hk, ?_⟩
          rcases (huse k hk).2 with rfl | ⟨x, hx, e⟩
          · exact Or.inl fun x e => hsink x ((hp.induced.2 _ _).1 e).1
          · exact Or.inr ⟨x, hx, (hp.induced.2 _ _).2 ⟨e, hp.kept k hk, hp.kept x hx⟩⟩
        · intro hk
          rcases (huse n hk).2 with e | ⟨x, hx, e⟩
          · exact h3a e
          · exact h3b x ((hp.induced.2 _ _).2 ⟨e, h1, hp.kept x hx⟩)
    · refine ih (done ++ [n]) h ho' ⟨hp.induced, hp.nodup, ?_, ?_, hp.kept⟩
      · intro m hm hmn
        rcases List.mem_append.1 hm with hm | hm
        · exact hp.pred m hm hmn
        · obtain rfl := List.mem_singleton.1 hm
          by_cases hs : m = src
          · exact Or.inl hs
          · have h0 : 0 < (h.preds m).length := Nat.pos_of_ne_zero fun h0 => h2 ⟨hs, h0⟩
            obtain ⟨x, hx⟩ := List.exists_mem_of_length_pos h0
            exact Or.inr ⟨x, mem_preds.1 hx⟩
      · intro m hm hmn
        rcases List.mem_append.1 hm with hm | hm
        · exact hp.succ m hm hmn
        · obtain rfl := List.mem_singleton.1 hm
          by_cases hs : m = tgt
          · exact Or.inl hs
          · have h0 : 0 < (h.succs m).length := Nat.pos_of_ne_zero fun h0 => h3 ⟨hs, h0⟩
            obtain ⟨x, hx⟩ := List.exists_mem_of_length_pos h0
            exact Or.inr ⟨x, mem_succs.1 hx⟩
    · refine ih (done ++ [n]) h ho' ⟨hp.induced, hp.nodup, ?_, ?_, hp.kept⟩
      · intro m hm hmn
        rcases List.mem_append.1 hm with h | h
        · exact hp.pred m h hmn
        · rw [List.mem_singleton.1 h] at hmn
          exact absurd hmn h1
      · intro m hm hmn
        rcases List.mem_append.1 hm with h | h
        · exact hp.succ m h hmn
        · rw [List.mem_singleton.1 h] at hmn
          exact absurd hmn h1

/-- **C96**: whatever topological order of the graph is used, pruning leaves exactly the nodes on
paths from the input to the output, and all edges between them.  The recursion is never deeper than
the number of nodes. -/
theorem C96_pruned (g : Graph) (src tgt : ℕ) (order : List ℕ) (hwf : g.WF) (hnd : g.nodes.Nodup)
    (ht : Topological g order) (hsink : ∀ x, ¬ g.Edge tgt x) :
    ∃ g', prune g.nodes.length order g src tgt = some g' ∧
      (∀ n, n ∈ g'.nodes ↔ g.Useful src tgt n) ∧
      ∀ u v, g'.Edge u v ↔ g.Edge u v ∧ g.Useful src tgt u ∧ g.Useful src tgt v := by
  obtain ⟨g', he, hp⟩ := pruneLoop_ok (src := src) hwf ht hsink g.nodes.length (Nat.le_refl _) order [] g
    rfl ⟨Induced.refl hwf, hnd, by simp, by simp, fun k hk => hk.1⟩
  have hall : ∀ n ∈ g'.nodes, n ∈ order := fun n hn => (ht.mem n).2 (hp.induced.1 n hn)
  have key : ∀ n, n ∈ g'.nodes ↔ g.Useful src tgt n := by
    intro n
    refine ⟨fun hn => ⟨hp.induced.1 n hn, ?_, ?_⟩, hp.kept n⟩
    · -- back to the input
      have : ∀ (r n : ℕ), order.idxOf n ≤ r → n ∈ g'.nodes → g.Path src n := by
        intro r
        induction r with
        | zero =>
          intro n hr hn
          rcases hp.pred n (hall n hn) hn with rfl | ⟨p, e⟩
          · exact .here _
          · have := ht.forward p n ((hp.induced.2 _ _).1 e).1
            omega
        | succ r ih =>
          intro n hr hn
          rcases hp.pred n (hall n hn) hn with rfl | ⟨p, e⟩
          · exact .here _
          · have e' := (hp.induced.2 _ _).1 e
            have := ht.forward p n e'.1
            exact (ih p (by omega) e'.2.1).append e'.1
      exact this _ n (Nat.le_refl _) hn
    · -- on to the output
      have : ∀ (r n : ℕ), order.length ≤ order.idxOf n + r → n ∈ g'.nodes → g.Path n tgt := by
        intro r
        induction r with
        | zero =>
          intro n hr hn
          have := List.idxOf_lt_length_iff.2 (hall n hn)
          omega
        | succ r ih =>
          intro n hr hn
          rcases hp.succ n (hall n hn) hn with rfl | ⟨x, e⟩
          · exact .here _
          · have e' := (hp.induced.2 _ _).1 e
            have := ht.forward n x e'.1
            exact .step e'.1 (ih x (by omega) e'.2.2)
      exact this order.length n (by omega) hn
  refine ⟨g', he, key, fun u v => ?_⟩
  rw [hp.induced.2 u v, key u, key v]

/-- Six nodes: 0 is the input, 1 the output; 4 leads nowhere, 5 is not reached, and 3 is on the
only path. -/
def demo : Graph := ⟨[0, 1, 2, 3, 4, 5], [(0, 3), (3, 1), (0, 2), (2, 4), (5, 1)]⟩

/-- The hypotheses are met, and the result. -/
example : demo.WF ∧ demo.nodes.Nodup ∧ Topological demo [0, 5, 2, 3, 4, 1] ∧ (∀ x, ¬ demo.Edge 1 x) ∧
    prune 6 [0, 5, 2, 3, 4, 1] demo 0 1 = some ⟨[0, 1, 3], [(0, 3), (3, 1)]⟩ := by
  have h : ∀ u v, demo.Edge u v ↔ (u, v) ∈ [(0, 3), (3, 1), (0, 2), (2, 4), (5, 1)] :=
    fun _ _ => Iff.rfl
  refine ⟨?_, by decide, ⟨by decide, ?_, ?_⟩, ?_, by decide +kernel⟩
  · intro u v e
    simp [h] at e
    rcases e with ⟨rfl, rfl⟩ | ⟨rfl, rfl⟩ | ⟨rfl, rfl⟩ | ⟨rfl, rfl⟩ | ⟨rfl, rfl⟩ <;> decide
  · intro n
    simp [demo]
    tauto
  · intro u v e
    simp [h] at e
    rcases e with ⟨rfl, rfl⟩ | ⟨rfl, rfl⟩ | ⟨rfl, rfl⟩ | ⟨rfl, rfl⟩ | ⟨rfl, rfl⟩ <;> decide
  · intro x e
    simp [h] at e

/-- Without the condition on the output the output itself may be removed: 2 leads nowhere, and
removing it takes its predecessor 1 with it. -/
theorem C96_output_with_successor_fails : ∃ g : Graph, g.WF ∧ g.nodes.Nodup ∧
    Topological g [0, 1, 2] ∧ g.Useful 0 1 1 ∧ prune 3 [0, 1, 2] g 0 1 = some ⟨[], []⟩ := by
  have h : ∀ u v, Graph.Edge ⟨[0, 1, 2], [(0, 1), (1, 2)]⟩ u v ↔ (u, v) ∈ [(0, 1), (1, 2)] :=
    fun _ _ => Iff.rfl
  refine ⟨⟨[0, 1, 2], [(0, 1), (1, 2)]⟩, ?_, by decide, ⟨by decide, ?_, ?_⟩,
    ⟨by decide, .step ((h 0 1).2 (by decide)) (.here _), .here _⟩, by decide +kernel⟩
  · intro u v e
    simp [h] at e
    rcases e with ⟨rfl, rfl⟩ | ⟨rfl, rfl⟩ <;> decide
  · intro n; simp
  · intro u v e
    simp [h] at e
    rcases e with ⟨rfl, rfl⟩ | ⟨rfl, rfl⟩ <;> decide

end Verif.Arch
