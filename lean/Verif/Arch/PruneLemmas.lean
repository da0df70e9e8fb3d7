import Verif.Arch.PruneModel
import Verif.Arch.NetLemmas
import Verif.Arch.Props

/-! # Lemmas on pruning the graph of an architecture -/

namespace Verif.Arch

variable {α : Type}

theorem Graph.Path.trans {g : Graph} {u v w : ℕ} (h : g.Path u v) (h' : g.Path v w) : g.Path u w := by
  induction h with
  | here => exact h'
  | step e _ ih => exact .step e (ih h')

theorem Graph.Path.lastEdge {g : Graph} {u v : ℕ} (h : g.Path u v) :
    u = v ∨ ∃ w, g.Path u w ∧ g.Edge w v := by
  induction h with
  | here => exact Or.inl rfl
  | @step u x v e p ih =>
    rcases ih with rfl | ⟨w, hw, e'⟩
    · exact Or.inr ⟨u, .here u, e⟩
    · exact Or.inr ⟨w, .step e hw, e'⟩

theorem Graph.Path.first {g : Graph} {u v : ℕ} (h : g.Path u v) :
    u = v ∨ ∃ w, g.Edge u w ∧ g.Path w v := by
  cases h with
  | here => exact Or.inl rfl
  | step e p => exact Or.inr ⟨_, e, p⟩

theorem Graph.Path.target_mem {g : Graph} (hwf : g.WF) {u v : ℕ} (h : g.Path u v) (hu : u ∈ g.nodes) :
    v ∈ g.nodes := by
  rcases h.lastEdge with rfl | ⟨w, -, e⟩
  · exact hu
  · exact (hwf _ _ e).2

theorem Graph.Path.source_mem {g : Graph} (hwf : g.WF) {u v : ℕ} (h : g.Path u v) (hv : v ∈ g.nodes) :
    u ∈ g.nodes := by
  rcases h.first with rfl | ⟨w, e, -⟩
  · exact hv
  · exact (hwf _ _ e).1

/-- The graph that is left: the edges without zero operation between nodes on a path from `s` to `t`. -/
structure FlatKept (zero : ℕ × ℕ × (α → α) → Bool) (G : Flat α) (s t : ℕ) (H : Flat α) : Prop where
  nodes : ∀ n, n ∈ H.nodes ↔ (G.dropZero zero).graph.Useful s t n
  edges : ∀ e, e ∈ H.edges ↔ e ∈ G.edges ∧ zero e = false ∧ (G.dropZero zero).graph.Useful s t e.1 ∧
    (G.dropZero zero).graph.Useful s t e.2.1
  sub : H.edges.Sublist G.edges

variable {zero : ℕ × ℕ × (α → α) → Bool} {G H : Flat α} {s t : ℕ}

theorem edge_dropZero {u v : ℕ} : (G.dropZero zero).graph.Edge u v ↔
    ∃ e ∈ G.edges, zero e = false ∧ e.1 = u ∧ e.2.1 = v := by
  unfold Graph.Edge Flat.graph Flat.dropZero
  rw [mem_edge_pairs]
  constructor
  · rintro ⟨e, he, h1, h2⟩
    obtain ⟨h3, h4⟩ := List.mem_filter.1 he
    exact ⟨e, h3, by simpa using h4, h1, h2⟩
  · rintro ⟨e, he, h1, h2, h3⟩
    exact ⟨e, List.mem_filter.2 ⟨he, by simpa using h1⟩, h2, h3⟩

theorem wf_dropZero (hends : ∀ e ∈ G.edges, e.1 ∈ G.nodes ∧ e.2.1 ∈ G.nodes) :
    (G.dropZero zero).graph.WF := by
  intro u v huv
  obtain ⟨e, he, -, rfl, rfl⟩ := edge_dropZero.1 huv
  exact hends e he

theorem filter_single {l : List ℕ} (hnd : l.Nodup) {p : ℕ → Bool} {a : ℕ} (ha : a ∈ l)
    (h : ∀ b ∈ l, p b = true ↔ b = a) : l.filter p = [a] := by
  have h1 : (l.filter p).Nodup := hnd.filter p
  have h2 : ∀ b, b ∈ l.filter p ↔ b = a := by
    intro b
    rw [List.mem_filter]
    constructor
    · rintro ⟨hb, hp⟩
      exact (h b hb).1 hp
    · rintro rfl
      exact ⟨ha, (h b ha).2 rfl⟩
  match hl : l.filter p with
  | [] => rw [hl] at h2; simpa using (h2 a).2 rfl
  | [b] => rw [hl] at h2; rw [(h2 b).1 (by simp)]
  | b :: c :: r =>
    rw [hl] at h1 h2
    have hb := (h2 b).1 (by simp)
    have hc := (h2 c).1 (by simp)
    rw [hb, hc] at h1
    simp at h1

theorem pruneFlat_ok (hlev : Level (G.edges.map fun e => (e.1, e.2.1)) s t)
    (hends : ∀ e ∈ G.edges, e.1 ∈ G.nodes ∧ e.2.1 ∈ G.nodes)
    (hnodes : ∀ w ∈ G.nodes, ∃ e ∈ G.edges, w = e.1 ∨ w = e.2.1) (hnd : G.nodes.Nodup)
    {order : List ℕ} (ho : Topological (G.dropZero zero).graph order) :
    ∃ H, pruneFlat zero order G = some H ∧ FlatKept zero G s t H := by
  obtain ⟨v₀, hv₀⟩ := hlev.source.1
  obtain ⟨u₀, hu₀⟩ := hlev.sink.1
  obtain ⟨es, hes, hes1, -⟩ := mem_edge_pairs.1 hv₀
  obtain ⟨et, het, -, het2⟩ := mem_edge_pairs.1 hu₀
  simp only at hes1 het2
  have hsrc : G.nodes.filter (noInput (G.edges.map fun e => (e.1, e.2.1))) = [s] := by
    apply filter_single hnd (hes1 ▸ (hends es hes).1)
    intro b hb
    constructor
    · intro h
      have h' : ∀ e ∈ G.edges, e.2.1 ≠ b := by simpa [noInput] using h
      obtain ⟨e, he, rfl | rfl⟩ := hnodes b hb
      · rcases level_inputs hlev e he with h1 | ⟨e', he', h1⟩
        · exact h1.1
        · exact absurd h1 (h' e' he')
      · exact absurd rfl (h' e he)
    · rintro rfl
      simp only [noInput, List.all_eq_true, decide_eq_true_eq]
      intro p hp hpb
      apply hlev.source.2 p.1
      rw [← hpb]
      exact hp
  have htgt : G.nodes.filter (noOutput (G.edges.map fun e => (e.1, e.2.1))) = [t] := by
    apply filter_single hnd (het2 ▸ (hends et het).2)
    intro b hb
    constructor
    · intro h
      have h' : ∀ e ∈ G.edges, e.1 ≠ b := by simpa [noOutput] using h
      obtain ⟨e, he, rfl | rfl⟩ := hnodes b hb
      · exact absurd rfl (h' e he)
      · rcases hlev.sinkOnly (e.1, e.2.1) (mem_edge_pairs.2 ⟨e, he, rfl, rfl⟩) with h1 | ⟨w, hw⟩
        · exact h1
        · obtain ⟨e', he', h1, -⟩ := mem_edge_pairs.1 hw
          exact absurd h1 (h' e' he')
    · rintro rfl
      simp only [noOutput, List.all_eq_true, decide_eq_true_eq]
      intro p hp hpb
      apply hlev.sink.2 p.2
      rw [← hpb]
      exact hp
  obtain ⟨g, h1, h2, h3⟩ := C96_pruned (G.dropZero zero).graph s t order (wf_dropZero hends) hnd ho (by
    intro x hx
    obtain ⟨e, he, -, h1, h2⟩ := edge_dropZero.1 hx
    apply hlev.sink.2 x
    rw [mem_edge_pairs]
    exact ⟨e, he, h1, h2⟩)
  refine ⟨_, by
    unfold pruneFlat
    rw [hsrc, htgt]
    simp only
    have : (G.dropZero zero).nodes.length = (G.dropZero zero).graph.nodes.length := rfl
    rw [this, h1], ?_⟩
  constructor
  · exact h2
  · intro e
    simp only [List.mem_filter, List.contains_iff_mem]
    have h4 := h3 e.1 e.2.1
    unfold Graph.Edge at h4
    rw [h4]
    have h5 : e ∈ (G.dropZero zero).edges ↔ e ∈ G.edges ∧ zero e = false := by
      unfold Flat.dropZero
      rw [List.mem_filter]
      simp
    rw [h5]
    constructor
    · rintro ⟨⟨h6, h7⟩, -, h8⟩
      exact ⟨h6, h7, h8⟩
    · rintro ⟨h6, h7, h8⟩
      exact ⟨⟨h6, h7⟩, (mem_edge_pairs.2 ⟨e, h5.2 ⟨h6, h7⟩, rfl, rfl⟩), h8⟩
  · exact List.filter_sublist.trans List.filter_sublist

/-! ## What is left has one input and one output -/

theorem useful_pred (hends : ∀ e ∈ G.edges, e.1 ∈ G.nodes ∧ e.2.1 ∈ G.nodes) {n : ℕ}
    (h : (G.dropZero zero).graph.Useful s t n) (hns : n ≠ s) :
    ∃ e ∈ G.edges, zero e = false ∧ e.2.1 = n ∧ (G.dropZero zero).graph.Useful s t e.1 := by
  obtain ⟨h1, h2, h3⟩ := h
  rcases h2.lastEdge with rfl | ⟨w, hw, e⟩
  · exact absurd rfl hns
  · obtain ⟨e', he', hz, rfl, rfl⟩ := edge_dropZero.1 e
    exact ⟨e', he', hz, rfl, (hends e' he').1, hw, .step e h3⟩

theorem useful_succ (hends : ∀ e ∈ G.edges, e.1 ∈ G.nodes ∧ e.2.1 ∈ G.nodes) {n : ℕ}
    (h : (G.dropZero zero).graph.Useful s t n) (hnt : n ≠ t) :
    ∃ e ∈ G.edges, zero e = false ∧ e.1 = n ∧ (G.dropZero zero).graph.Useful s t e.2.1 := by
  obtain ⟨h1, h2, h3⟩ := h
  rcases h3.first with rfl | ⟨w, e, hw⟩
  · exact absurd rfl hnt
  · obtain ⟨e', he', hz, rfl, rfl⟩ := edge_dropZero.1 e
    exact ⟨e', he', hz, rfl, (hends e' he').2, h2.trans (.step e (.here _)), hw⟩

theorem Level.ne {ps : List (ℕ × ℕ)} (h : Level ps s t) : s ≠ t := by
  rintro rfl
  obtain ⟨v, hv⟩ := h.source.1
  exact h.sink.2 v hv

theorem kept_level (hlev : Level (G.edges.map fun e => (e.1, e.2.1)) s t)
    (hends : ∀ e ∈ G.edges, e.1 ∈ G.nodes ∧ e.2.1 ∈ G.nodes) (hk : FlatKept zero G s t H)
    (hpath : (G.dropZero zero).graph.Path s t) :
    Level (H.edges.map fun e => (e.1, e.2.1)) s t ∧
    (∀ e ∈ H.edges, e.1 ∈ H.nodes ∧ e.2.1 ∈ H.nodes) ∧
    (∀ w ∈ H.nodes, ∃ e ∈ H.edges, w = e.1 ∨ w = e.2.1) := by
  obtain ⟨v₀, hv₀⟩ := hlev.source.1
  obtain ⟨u₀, hu₀⟩ := hlev.sink.1
  obtain ⟨es, hes, hes1, -⟩ := mem_edge_pairs.1 hv₀
  obtain ⟨et, het, -, het2⟩ := mem_edge_pairs.1 hu₀
  simp only at hes1 het2
  have hus : (G.dropZero zero).graph.Useful s t s := ⟨hes1 ▸ (hends es hes).1, .here _, hpath⟩
  have hut : (G.dropZero zero).graph.Useful s t t := ⟨het2 ▸ (hends et het).2, hpath, .here _⟩
  have hin : ∀ n, (G.dropZero zero).graph.Useful s t n → n ≠ s → ∃ e ∈ H.edges, e.2.1 = n := by
    intro n hn hns
    obtain ⟨e, h1, h2, h3, h4⟩ := useful_pred hends hn hns
    exact ⟨e, (hk.edges e).2 ⟨h1, h2, h4, h3 ▸ hn⟩, h3⟩
  have hout : ∀ n, (G.dropZero zero).graph.Useful s t n → n ≠ t → ∃ e ∈ H.edges, e.1 = n := by
    intro n hn hnt
    obtain ⟨e, h1, h2, h3, h4⟩ := useful_succ hends hn hnt
    exact ⟨e, (hk.edges e).2 ⟨h1, h2, h3 ▸ hn, h4⟩, h3⟩
  have hsubp : ∀ p, p ∈ (H.edges.map fun e => (e.1, e.2.1)) → p ∈ (G.edges.map fun e => (e.1, e.2.1)) :=
    fun p hp => (hk.sub.map _).subset hp
  refine ⟨⟨hlev.nodup.sublist (hk.sub.map _), ?_, ⟨?_, ?_⟩, ?_, ⟨?_, ?_⟩, ?_⟩, ?_, ?_⟩
  · obtain ⟨ρ, hρ⟩ := hlev.rank
    exact ⟨ρ, fun e he => hρ e (hsubp e he)⟩
  · obtain ⟨e, he, h1⟩ := hout s hus hlev.ne
    exact ⟨e.2.1, mem_edge_pairs.2 ⟨e, he, h1, rfl⟩⟩
  · exact fun u hu => hlev.source.2 u (hsubp _ hu)
  · intro p hp
    obtain ⟨e, he, h1, -⟩ := mem_edge_pairs.1 hp
    by_cases hps : p.1 = s
    · exact Or.inl hps
    · obtain ⟨e', he', h2⟩ := hin p.1 (h1 ▸ ((hk.edges e).1 he).2.2.1) hps
      exact Or.inr ⟨e'.1, mem_edge_pairs.2 ⟨e', he', rfl, h2⟩⟩
  · obtain ⟨e, he, h1⟩ := hin t hut (Ne.symm hlev.ne)
    exact ⟨e.1, mem_edge_pairs.2 ⟨e, he, rfl, h1⟩⟩
  · exact fun v hv => hlev.sink.2 v (hsubp _ hv)
  · intro p hp
    obtain ⟨e, he, -, h1⟩ := mem_edge_pairs.1 hp
    by_cases hpt : p.2 = t
    · exact Or.inl hpt
    · obtain ⟨e', he', h2⟩ := hout p.2 (h1 ▸ ((hk.edges e).1 he).2.2.2) hpt
      exact Or.inr ⟨e'.2.1, mem_edge_pairs.2 ⟨e', he', h2, rfl⟩⟩
  · intro e he
    obtain ⟨-, -, h1, h2⟩ := (hk.edges e).1 he
    exact ⟨(hk.nodes _).2 h1, (hk.nodes _).2 h2⟩
  · intro w hw
    have hu := (hk.nodes w).1 hw
    by_cases hws : w = s
    · obtain ⟨e, he, h1⟩ := hout w hu (hws ▸ hlev.ne)
      exact ⟨e, he, Or.inl h1.symm⟩
    · obtain ⟨e, he, h1⟩ := hin w hu hws
      exact ⟨e, he, Or.inr h1.symm⟩

/-! ## The function -/

section function
variable [AddCommMonoid α]

theorem inSum_sublist {es es' : List (ℕ × ℕ × (α → α))} (h : es'.Sublist es)
    (hnd : (es.map fun e => (e.1, e.2.1)).Nodup) (val : ℕ → α) (v : ℕ)
    (hz : ∀ e ∈ es, e ∉ es' → e.2.1 = v → e.2.2 (val e.1) = 0) : inSum es val v = inSum es' val v := by
  induction h with
  | slnil => rfl
  | @cons l₁ l₂ a hs ih =>
    have hnd' := List.nodup_cons.1 hnd
    have ha : a ∉ l₁ := fun h => hnd'.1 (List.mem_map_of_mem (hs.subset h))
    rw [inSum_cons, ih hnd'.2 fun e he hne => hz e (List.mem_cons_of_mem _ he) hne]
    split
    · rename_i hv
      rw [hz a List.mem_cons_self ha hv, zero_add]
    · rw [zero_add]
  | @cons_cons l₁ l₂ a hs ih =>
    have hnd' := List.nodup_cons.1 hnd
    rw [inSum_cons, inSum_cons, ih hnd'.2]
    intro e he hne hv
    apply hz e (List.mem_cons_of_mem _ he) _ hv
    intro hm
    rcases List.mem_cons.1 hm with rfl | hm
    · exact hnd'.1 (List.mem_map_of_mem he)
    · exact hne hm

/-- Pruning keeps the function, if zero operations are zero and the others keep zero. -/
theorem kept_computes (hlev : Level (G.edges.map fun e => (e.1, e.2.1)) s t)
    (hends : ∀ e ∈ G.edges, e.1 ∈ G.nodes ∧ e.2.1 ∈ G.nodes) (hk : FlatKept zero G s t H)
    (hpath : (G.dropZero zero).graph.Path s t)
    (hzero : ∀ e ∈ G.edges, zero e = true → ∀ x, e.2.2 x = 0)
    (hkeep : ∀ e ∈ G.edges, ¬ (G.dropZero zero).graph.Path s e.1 → e.2.2 0 = 0) {F : α → α}
    (hF : Computes List.sum G.edges F) : Computes List.sum H.edges F := by
  have hlevH := (kept_level hlev hends hk hpath).1
  obtain ⟨ρ, hρ⟩ := level_rank hlev
  intro x
  obtain ⟨val, h1, h2, h3⟩ := hF x
  have hsum : ∀ e ∈ G.edges, val e.2.1 = inSum G.edges val e.2.1 :=
    fun e he => (h2 e he).trans (mergeInputs_sum _)
  -- what is not reached is zero
  have hdead : ∀ (r : ℕ) (e : ℕ × ℕ × (α → α)), e ∈ G.edges → ρ e.1 ≤ r →
      ¬ (G.dropZero zero).graph.Path s e.1 → val e.1 = 0 := by
    intro r
    induction r with
    | zero =>
      intro e he hr hn
      rcases level_inputs hlev e he with ⟨h, -⟩ | ⟨e', he', h⟩
      · exact absurd (h ▸ .here _) hn
      · have := hρ e' he'
        rw [h] at this
        omega
    | succ r ih =>
      intro e he hr hn
      rcases level_inputs hlev e he with ⟨h, -⟩ | ⟨e', he', h⟩
      · exact absurd (h ▸ .here _) hn
      · rw [← h, hsum e' he']
        rw [inSum_sublist (es' := []) (List.nil_sublist _) hlev.nodup, inSum_nil]
        intro e'' he'' _ heq
        cases hz : zero e'' with
        | true => exact hzero e'' he'' hz _
        | false =>
          have hnp : ¬ (G.dropZero zero).graph.Path s e''.1 := by
            intro hp
            apply hn
            rw [← h, ← heq]
            exact hp.trans (.step (edge_dropZero.2 ⟨e'', he'', hz, rfl, rfl⟩) (.here _))
          rw [ih e'' he'' (by
            have := hρ e'' he''
            rw [heq, h] at this
            omega) hnp, hkeep e'' he'' hnp]
  refine ⟨val, ?_, ?_, ?_⟩
  · intro e he hno
    rcases level_inputs hlevH e he with ⟨h, -⟩ | ⟨e', he', h⟩
    · apply h1 e (hk.sub.subset he)
      intro e' he' heq
      apply hlev.source.2 e'.1
      rw [mem_edge_pairs]
      exact ⟨e', he', rfl, heq.trans h⟩
    · exact absurd h (hno e' he')
  · intro e he
    rw [mergeInputs_sum, hsum e (hk.sub.subset he)]
    apply inSum_sublist hk.sub hlev.nodup
    intro e' he' hne heq
    cases hz : zero e' with
    | true => exact hzero e' he' hz _
    | false =>
      have hnp : ¬ (G.dropZero zero).graph.Path s e'.1 := by
        intro hp
        apply hne
        have hu := ((hk.edges e).1 he).2.2.2
        rw [hk.edges]
        refine ⟨he', hz, ⟨(hends e' he').1, hp, ?_⟩, heq ▸ hu⟩
        exact .step (edge_dropZero.2 ⟨e', he', hz, rfl, rfl⟩) (heq ▸ hu.2.2)
      rw [hdead _ e' he' le_rfl hnp, hkeep e' he' hnp]
  · intro e he hno
    rcases hlevH.sinkOnly (e.1, e.2.1) (mem_edge_pairs.2 ⟨e, he, rfl, rfl⟩) with h | ⟨w, hw⟩
    · apply h3 e (hk.sub.subset he)
      intro e' he' heq
      apply hlev.sink.2 e'.2.1
      rw [mem_edge_pairs]
      exact ⟨e', he', heq.trans h, rfl⟩
    · obtain ⟨e', he', h, -⟩ := mem_edge_pairs.1 hw
      exact absurd h (hno e' he')

end function

theorem reached_all (hlev : Level (G.edges.map fun e => (e.1, e.2.1)) s t)
    (hz : ∀ e ∈ G.edges, zero e = false) : ∀ e ∈ G.edges, (G.dropZero zero).graph.Path s e.1 := by
  obtain ⟨ρ, hρ⟩ := level_rank hlev
  have key : ∀ (r : ℕ) (e : ℕ × ℕ × (α → α)), e ∈ G.edges → ρ e.1 ≤ r →
      (G.dropZero zero).graph.Path s e.1 := by
    intro r
    induction r with
    | zero =>
      intro e he hr
      rcases level_inputs hlev e he with ⟨h, -⟩ | ⟨e', he', h⟩
      · exact h ▸ .here _
      · have := hρ e' he'
        rw [h] at this
        omega
    | succ r ih =>
      intro e he hr
      rcases level_inputs hlev e he with ⟨h, -⟩ | ⟨e', he', h⟩
      · exact h ▸ .here _
      · have := hρ e' he'
        rw [h] at this
        rw [← h]
        exact (ih e' he' (by omega)).trans
          (.step (edge_dropZero.2 ⟨e', he', hz e' he', rfl, rfl⟩) (.here _))
  exact fun e he => key _ e he le_rfl

theorem path_all (hlev : Level (G.edges.map fun e => (e.1, e.2.1)) s t)
    (hz : ∀ e ∈ G.edges, zero e = false) : (G.dropZero zero).graph.Path s t := by
  obtain ⟨u, hu⟩ := hlev.sink.1
  obtain ⟨e, he, -, h⟩ := mem_edge_pairs.1 hu
  simp only at h
  rw [← h]
  exact (reached_all hlev hz e he).trans (.step (edge_dropZero.2 ⟨e, he, hz e he, rfl, rfl⟩) (.here _))

/-! ## Nodes and operations of the flat graph -/

theorem addNode_nodup {n : ℕ} (h : G.nodes.Nodup) : (G.addNode n).nodes.Nodup := by
  unfold Flat.addNode
  split
  · exact h
  · rename_i hn
    rw [List.nodup_append]
    refine ⟨h, by simp, ?_⟩
    intro a ha b hb hab
    rw [List.mem_singleton] at hb
    subst hb
    subst hab
    exact hn ha

theorem place_nodes_nodup (wanted : Option ℕ) (n : ℕ) (m : List (ℕ × ℕ)) (G : Flat α)
    (h : G.nodes.Nodup) : (place wanted n m G).2.2.nodes.Nodup := by
  unfold place
  split
  · exact h
  · exact addNode_nodup h

theorem addEdge_nodes (G : Flat α) (a b : ℕ) (f : α → α) : (G.addEdge a b f).nodes = G.nodes := by
  unfold Flat.addEdge
  split <;> rfl

theorem flattenLoop_nodes_nodup (N : Net α) : ∀ (all : List (ℕ × ℕ)) (start stop : Option ℕ)
    (m : List (ℕ × ℕ)) (G : Flat α), G.nodes.Nodup →
    (flattenLoop all start stop N m G).nodes.Nodup := by
  induction N with
  | nil => intro all start stop m G h; exact h
  | prim u v f rest ih =>
    intro all start stop m G h
    apply ih
    rw [addEdge_nodes]
    exact place_nodes_nodup _ _ _ _ (place_nodes_nodup _ _ _ _ h)
  | sub u v merge inner rest ihi ihr =>
    intro all start stop m G h
    apply ihr
    apply ihi
    exact place_nodes_nodup _ _ _ _ (place_nodes_nodup _ _ _ _ h)

/-- The primitive operations of a composed function. -/
def Net.prims : Net α → List (α → α)
  | .nil => []
  | .prim _ _ f rest => f :: prims rest
  | .sub _ _ _ inner rest => prims inner ++ prims rest

theorem addEdge_ops {G : Flat α} {a b : ℕ} {f : α → α} {e : ℕ × ℕ × (α → α)}
    (he : e ∈ (G.addEdge a b f).edges) : e.2.2 = f ∨ ∃ e' ∈ G.edges, e'.2.2 = e.2.2 := by
  unfold Flat.addEdge at he
  split at he
  · obtain ⟨e', he', rfl⟩ := List.mem_map.1 he
    by_cases h : e'.1 = a ∧ e'.2.1 = b
    · rw [if_pos h]
      exact Or.inl rfl
    · rw [if_neg h]
      exact Or.inr ⟨e', he', rfl⟩
  · rcases List.mem_append.1 he with h | h
    · exact Or.inr ⟨e, h, rfl⟩
    · rw [List.mem_singleton] at h
      exact Or.inl (h ▸ rfl)

theorem flattenLoop_prims (N : Net α) : ∀ (all : List (ℕ × ℕ)) (start stop : Option ℕ)
    (m : List (ℕ × ℕ)) (G : Flat α), ∀ e ∈ (flattenLoop all start stop N m G).edges,
    e.2.2 ∈ N.prims ∨ ∃ e' ∈ G.edges, e'.2.2 = e.2.2 := by
  induction N with
  | nil => intro all start stop m G e he; exact Or.inr ⟨e, he, rfl⟩
  | prim u v f rest ih =>
    intro all start stop m G e he
    rcases ih _ _ _ _ _ e he with h | ⟨e', he', h⟩
    · exact Or.inl (List.mem_cons_of_mem _ h)
    · rcases addEdge_ops he' with h' | ⟨e'', he'', h'⟩
      · left
        rw [← h, h']
        exact List.mem_cons_self
      · rw [place_edges, place_edges] at he''
        exact Or.inr ⟨e'', he'', h'.trans h⟩
  | sub u v merge inner rest ihi ihr =>
    intro all start stop m G e he
    rcases ihr _ _ _ _ _ e he with h | ⟨e', he', h⟩
    · exact Or.inl (List.mem_append_right _ h)
    · rcases ihi _ _ _ _ _ e' he' with h' | ⟨e'', he'', h'⟩
      · exact Or.inl (List.mem_append_left _ (h ▸ h'))
      · rw [place_edges, place_edges] at he''
        exact Or.inr ⟨e'', he'', h'.trans h⟩

theorem flatten_prims (N : Net α) : ∀ e ∈ (flatten N).edges, e.2.2 ∈ N.prims := by
  intro e he
  rcases flattenLoop_prims N _ _ _ _ _ e he with h | ⟨e', he', -⟩
  · exact h
  · cases he'

end Verif.Arch
