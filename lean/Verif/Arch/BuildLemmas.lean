import Verif.Arch.BuildSpec

/-!
# Lemmas on the creation of operations
-/

namespace Verif.Arch

variable {V : Type} {rule : V → Option (Attrs V) → Option (Attrs V)} {source : ℕ}

theorem OpGraph.buildEdge_ok {G G' : OpGraph V} {e : ℕ × ℕ}
    (h : G.buildEdge rule source e = .ok G') :
    ∃ name d, G.attrs e "op_name" = some name ∧
      ((e.1 = source ∧ rule name none = some d) ∨
        ∃ p, e.1 ≠ source ∧ (G.predecessors e.1).head? = some p ∧
          rule name (some (G.attrs (p, e.1))) = some d) ∧
      G' = G.put e ((G.attrs e).update d) := by
  unfold OpGraph.buildEdge at h
  cases hn : G.attrs e "op_name" with
  | none => rw [hn] at h; simp at h
  | some name =>
    rw [hn] at h
    simp only at h
    split at h
    · rename_i hs
      cases hr : rule name none with
      | none => rw [hr] at h; simp at h
      | some d =>
        rw [hr] at h
        simp only [Except.ok.injEq] at h
        exact ⟨name, d, rfl, .inl ⟨hs, hr⟩, h.symm⟩
    · rename_i hs
      cases hp : (G.predecessors e.1).head? with
      | none => rw [hp] at h; simp at h
      | some p =>
        rw [hp] at h
        simp only at h
        cases hr : rule name (some (G.attrs (p, e.1))) with
        | none => rw [hr] at h; simp at h
        | some d =>
          rw [hr] at h
          simp only [Except.ok.injEq] at h
          exact ⟨name, d, rfl, .inr ⟨p, hs, rfl, hr⟩, h.symm⟩

theorem OpGraph.put_frame (G : OpGraph V) (e : ℕ × ℕ) (a : Attrs V) :
    (G.put e a).nodes = G.nodes ∧ (G.put e a).edges = G.edges ∧
    (∀ n, (G.put e a).predecessors n = G.predecessors n) ∧
    (∀ e', e' ≠ e → (G.put e a).attrs e' = G.attrs e') ∧ (G.put e a).attrs e = a := by
  refine ⟨rfl, rfl, fun _ => rfl, ?_, ?_⟩
  · intro e' h
    simp [OpGraph.put, h]
  · simp [OpGraph.put]

theorem OpGraph.buildEdges_frame (es : List (ℕ × ℕ)) {G G' : OpGraph V}
    (h : G.buildEdges rule source es = .ok G') :
    G'.nodes = G.nodes ∧ G'.edges = G.edges ∧ ∀ e, e ∉ es → G'.attrs e = G.attrs e := by
  induction es generalizing G with
  | nil =>
    simp only [OpGraph.buildEdges, Except.ok.injEq] at h
    subst h
    exact ⟨rfl, rfl, fun _ _ => rfl⟩
  | cons e es ih =>
    simp only [OpGraph.buildEdges] at h
    cases h1 : G.buildEdge rule source e with
    | error r => rw [h1] at h; simp at h
    | ok G1 =>
      rw [h1] at h
      simp only at h
      obtain ⟨name, d, _, _, rfl⟩ := OpGraph.buildEdge_ok h1
      obtain ⟨a, b, c⟩ := ih h
      refine ⟨a, b, ?_⟩
      intro e' he'
      simp only [List.mem_cons, not_or] at he'
      rw [c e' he'.2, (G.put_frame e _).2.2.2.1 e' he'.1]

/-- The items after the loop, if no edge is visited before the edges that lead to it. -/
theorem OpGraph.buildEdges_spec (es : List (ℕ × ℕ)) {G G' : OpGraph V}
    (h : G.buildEdges rule source es = .ok G')
    (hnodup : es.Nodup) (hloop : ∀ e ∈ es, e.1 ≠ e.2) (hord : es.Pairwise fun e e' => e'.2 ≠ e.1) :
    ∀ e ∈ es, ∃ name d, G.attrs e "op_name" = some name ∧
      ((e.1 = source ∧ rule name none = some d) ∨
        ∃ p, e.1 ≠ source ∧ (G.predecessors e.1).head? = some p ∧
          rule name (some (G'.attrs (p, e.1))) = some d) ∧
      G'.attrs e = (G.attrs e).update d := by
  induction es generalizing G with
  | nil => simp
  | cons e es ih =>
    simp only [OpGraph.buildEdges] at h
    cases h1 : G.buildEdge rule source e with
    | error r => rw [h1] at h; simp at h
    | ok G1 =>
      rw [h1] at h
      simp only at h
      obtain ⟨name, d, hname, hrule, rfl⟩ := OpGraph.buildEdge_ok h1
      have hframe := OpGraph.buildEdges_frame es h
      have hput := G.put_frame e ((G.attrs e).update d)
      rw [List.nodup_cons] at hnodup
      rw [List.pairwise_cons] at hord
      have ih := ih h hnodup.2 (fun e' he' => hloop e' (by simp [he'])) hord.2
      intro e' he'
      rcases List.mem_cons.mp he' with rfl | hm
      · refine ⟨name, d, hname, ?_, ?_⟩
        · rcases hrule with hr | ⟨p, hs, hp, hr⟩
          · exact .inl hr
          · refine .inr ⟨p, hs, hp, ?_⟩
            have hne : (p, e'.1) ≠ e' := by
              intro hc
              have h2 : e'.1 = e'.2 := congrArg Prod.snd hc
              exact hloop e' (by simp) h2
            have hnot : (p, e'.1) ∉ es := by
              intro hc
              exact hord.1 _ hc rfl
            rw [hframe.2.2 _ hnot, hput.2.2.2.1 _ hne]
            exact hr
        · rw [hframe.2.2 _ hnodup.1, hput.2.2.2.2]
      · obtain ⟨name', d', h1', h2', h3'⟩ := ih e' hm
        have hne : e' ≠ e := by
          rintro rfl
          exact hnodup.1 hm
        rw [hput.2.2.2.1 _ hne] at h1' h3'
        exact ⟨name', d', h1', h2', h3'⟩

/-- The loop raises only if the rule of the user does. -/
theorem OpGraph.buildEdges_total (htotal : ∀ name a, (rule name a).isSome) (es : List (ℕ × ℕ))
    (G : OpGraph V) (hnodup : es.Nodup)
    (hnamed : ∀ e ∈ es, (G.attrs e "op_name").isSome)
    (hpred : ∀ e ∈ es, e.1 ≠ source → G.predecessors e.1 ≠ []) :
    ∃ G', G.buildEdges rule source es = .ok G' := by
  induction es generalizing G with
  | nil => exact ⟨G, rfl⟩
  | cons e es ih =>
    rw [List.nodup_cons] at hnodup
    obtain ⟨name, hname⟩ := Option.isSome_iff_exists.mp (hnamed e (by simp))
    have hstep : ∃ d, G.buildEdge rule source e = .ok (G.put e ((G.attrs e).update d)) := by
      unfold OpGraph.buildEdge
      rw [hname]
      simp only
      split
      · obtain ⟨d, hd⟩ := Option.isSome_iff_exists.mp (htotal name none)
        exact ⟨d, by rw [hd]⟩
      · rename_i hs
        cases hp : (G.predecessors e.1).head? with
        | none =>
          rw [List.head?_eq_none_iff] at hp
          exact absurd hp (hpred e (by simp) hs)
        | some p =>
          obtain ⟨d, hd⟩ := Option.isSome_iff_exists.mp (htotal name (some (G.attrs (p, e.1))))
          exact ⟨d, by simp only [hd]⟩
    obtain ⟨d, hd⟩ := hstep
    simp only [OpGraph.buildEdges, hd]
    have hput := G.put_frame e ((G.attrs e).update d)
    refine ih _ hnodup.2 ?_ ?_
    · intro e' he'
      have hne : e' ≠ e := by
        rintro rfl
        exact hnodup.1 he'
      rw [hput.2.2.2.1 _ hne]
      exact hnamed e' (by simp [he'])
    · intro e' he' hs
      rw [hput.2.2.1]
      exact hpred e' (by simp [he']) hs

/-- The edges in the order in which `_build` visits them. -/
def OpGraph.visits (G : OpGraph V) (order : List ℕ) : List (ℕ × ℕ) :=
  order.flatMap fun n => (G.predecessors n).map fun p => (p, n)

theorem OpGraph.mem_predecessors {G : OpGraph V} {p n : ℕ} :
    p ∈ G.predecessors n ↔ (p, n) ∈ G.edges := by
  simp only [OpGraph.predecessors, List.mem_map, List.mem_filter, decide_eq_true_eq]
  constructor
  · rintro ⟨e, ⟨he, rfl⟩, rfl⟩
    exact he
  · intro h
    exact ⟨(p, n), ⟨h, rfl⟩, rfl⟩

theorem OpGraph.Ready.mem_visits {G : OpGraph V} {order : List ℕ} (h : G.Ready source order)
    {e : ℕ × ℕ} : e ∈ G.visits order ↔ e ∈ G.edges := by
  simp only [OpGraph.visits, List.mem_flatMap, List.mem_map, OpGraph.mem_predecessors]
  constructor
  · rintro ⟨n, _, p, hp, rfl⟩
    exact hp
  · intro he
    exact ⟨e.2, h.listed _ (h.ends e he).2, e.1, he, rfl⟩

theorem OpGraph.Ready.pred_nodup {G : OpGraph V} {order : List ℕ} (h : G.Ready source order)
    (n : ℕ) : (G.predecessors n).Nodup := by
  refine List.Nodup.map_on ?_ (h.nodup.filter _)
  intro a ha b hb hab
  simp only [List.mem_filter, decide_eq_true_eq] at ha hb
  exact Prod.ext hab (ha.2.trans hb.2.symm)

theorem OpGraph.Ready.visits_sorted {G : OpGraph V} {order : List ℕ} (h : G.Ready source order) :
    (G.visits order).Nodup ∧ (G.visits order).Pairwise fun e e' => e'.2 ≠ e.1 := by
  have hs := h.sorted
  have : ∀ l : List ℕ, l.Pairwise (fun n m => m ≠ n ∧ (m, n) ∉ G.edges) →
      (G.visits l).Nodup ∧ (G.visits l).Pairwise fun e e' => e'.2 ≠ e.1 := by
    intro l hl
    induction l with
    | nil => simp [OpGraph.visits]
    | cons n l ih =>
      rw [List.pairwise_cons] at hl
      have ih := ih hl.2
      have hcons : G.visits (n :: l) = (G.predecessors n).map (fun p => (p, n)) ++ G.visits l := by
        simp [OpGraph.visits]
      have hmem : ∀ e ∈ G.visits l, e.2 ∈ l ∧ e ∈ G.edges := by
        intro e he
        simp only [OpGraph.visits, List.mem_flatMap, List.mem_map, OpGraph.mem_predecessors] at he
        obtain ⟨m, hm, p, hp, rfl⟩ := he
        exact ⟨hm, hp⟩
      rw [hcons]
      constructor
      · rw [List.nodup_append]
        refine ⟨(h.pred_nodup n).map (by intro a b hab; simpa using hab), ih.1, ?_⟩
        intro a ha b hb hab
        subst hab
        simp only [List.mem_map] at ha
        obtain ⟨p, _, rfl⟩ := ha
        exact (hl.1 n (hmem _ hb).1).1 rfl
      · rw [List.pairwise_append]
        refine ⟨?_, ih.2, ?_⟩
        · rw [List.pairwise_map]
          refine List.pairwise_of_forall_mem_list ?_
          intro p hp q hq hc
          simp only at hc
          rw [OpGraph.mem_predecessors] at hp
          exact h.loopless _ hp hc.symm
        · intro a ha b hb hc
          simp only [List.mem_map] at ha
          obtain ⟨p, hp, rfl⟩ := ha
          rw [OpGraph.mem_predecessors] at hp
          simp only at hc
          obtain ⟨hb1, _⟩ := hmem b hb
          rw [hc] at hb1
          exact (hl.1 p hb1).2 hp
  exact this order hs

theorem OpGraph.Ready.find_source {G : OpGraph V} {order : List ℕ} (h : G.Ready source order) :
    (G.nodes.find? fun n => G.predecessors n = []) = some source := by
  have hiff : ∀ n ∈ G.nodes, (G.predecessors n = [] ↔ n = source) := by
    intro n hn
    rw [← h.only n hn]
    constructor
    · intro hp e he hc
      have : e.1 ∈ G.predecessors n := by
        rw [OpGraph.mem_predecessors, ← hc]
        exact he
      rw [hp] at this
      simp at this
    · intro hall
      rw [List.eq_nil_iff_forall_not_mem]
      intro p hp
      rw [OpGraph.mem_predecessors] at hp
      exact hall _ hp rfl
  have hfind : ∃ m, (G.nodes.find? fun n => decide (G.predecessors n = [])) = some m := by
    rw [← Option.isSome_iff_exists, List.find?_isSome]
    exact ⟨source, h.source_mem, by simpa using (hiff _ h.source_mem).mpr rfl⟩
  obtain ⟨m, hm⟩ := hfind
  have h1 := List.find?_some hm
  have h2 := List.mem_of_find?_eq_some hm
  rw [decide_eq_true_eq] at h1
  rw [hm, (hiff m h2).mp h1]

theorem OpGraph.Ready.build_eq {G : OpGraph V} {order : List ℕ} (h : G.Ready source order) :
    G.build rule order = G.buildEdges rule source (G.visits order) := by
  unfold OpGraph.build
  rw [h.find_source]
  rfl

/-- The first of the predecessors. -/
theorem OpGraph.head_predecessors {G : OpGraph V} {n p : ℕ}
    (h : (G.predecessors n).head? = some p) :
    ∃ before after, G.edges = before ++ (p, n) :: after ∧ ∀ e ∈ before, e.2 ≠ n := by
  unfold OpGraph.predecessors at h
  rw [List.head?_map, List.head?_filter] at h
  cases hf : G.edges.find? (fun e => decide (e.2 = n)) with
  | none => rw [hf] at h; simp at h
  | some e =>
    rw [hf] at h
    simp only [Option.map_some, Option.some.injEq] at h
    rw [List.find?_eq_some_iff_append] at hf
    obtain ⟨h1, before, after, h2, h3⟩ := hf
    rw [decide_eq_true_eq] at h1
    refine ⟨before, after, ?_, ?_⟩
    · rw [h2, ← h, ← h1]
    · intro e' he'
      have := h3 e' he'
      simpa using this

theorem OpGraph.Ready.follows {G G' : OpGraph V} {order : List ℕ} (h : G.Ready source order)
    (hb : G.build rule order = .ok G') : G.Follows rule source G'.attrs := by
  rw [h.build_eq] at hb
  have hv := h.visits_sorted
  intro e he
  obtain ⟨name, d, hname, hrule, hres⟩ := OpGraph.buildEdges_spec _ hb hv.1
    (fun e he => h.loopless e (h.mem_visits.mp he)) hv.2 e (h.mem_visits.mpr he)
  refine ⟨name, d, hname, ?_, ?_⟩
  · rcases hrule with hr | ⟨p, hs, hp, hr⟩
    · exact .inl hr
    · obtain ⟨before, after, h1, h2⟩ := OpGraph.head_predecessors hp
      exact .inr ⟨before, p, after, hs, h1, h2, hr⟩
  · intro k
    rw [hres, Attrs.update]
    cases d k <;> rfl

/-- Induction along the edges. -/
theorem OpGraph.Ready.induct {G : OpGraph V} {order : List ℕ} (h : G.Ready source order)
    (P : ℕ × ℕ → Prop)
    (step : ∀ e ∈ G.edges, (∀ e' ∈ G.edges, e'.2 = e.1 → P e') → P e) :
    ∀ e ∈ G.edges, P e := by
  have main : ∀ k : ℕ, ∀ e ∈ G.edges, order.idxOf e.2 < k → P e := by
    intro k
    induction k with
    | zero => intro e _ hk; omega
    | succ k ih =>
      intro e he hk
      refine step e he ?_
      intro e' he' hc
      refine ih e' he' ?_
      have h1 := List.idxOf_lt_length_of_mem (h.listed _ (h.ends e he).1)
      have h2 := List.idxOf_lt_length_of_mem (h.listed _ (h.ends e he).2)
      rw [hc]
      by_contra hlt
      have hlt : order.idxOf e.2 ≤ order.idxOf e.1 := by omega
      rcases Nat.lt_or_eq_of_le hlt with hlt | heq
      · have hp := (List.pairwise_iff_getElem.mp h.sorted) _ _ h2 h1 hlt
        rw [List.getElem_idxOf, List.getElem_idxOf] at hp
        exact hp.2 he
      · have : e.2 = e.1 := by
          have h3 := List.getElem_idxOf h1
          have h4 := List.getElem_idxOf h2
          rw [← h3, ← h4]
          congr 1
        exact h.loopless e he this.symm
  intro e he
  exact main _ e he (Nat.lt_succ_self _)

theorem OpGraph.mapM_ok {α β ε : Type} (f : α → Except ε β) (g : α → β) (l : List α)
    (h : ∀ a ∈ l, f a = .ok (g a)) : l.mapM f = .ok (l.map g) := by
  induction l with
  | nil => rfl
  | cons a l ih =>
    rw [List.mapM_cons, h a (by simp), ih fun b hb => h b (by simp [hb])]
    rfl

end Verif.Arch
