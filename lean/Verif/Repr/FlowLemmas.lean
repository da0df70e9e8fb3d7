import Verif.Repr.TextLemmas

/-! # Ways through the picture and paths in the graph -/

namespace Verif.Repr

open Verif.Gram (Str Func)
open Verif.Arch (Graph)

/-! ## The operations of a function have different places -/

mutual
theorem leaves_prefix (T : Str → List (ℕ × ℕ)) : ∀ (f : Func) (p : List ℕ) (u v : Point),
    ∀ l ∈ leaves T f p u v, p <+: l.path
  | .op x, p, u, v, l, h => by
    simp only [leaves, List.mem_singleton] at h
    subst h
    exact List.prefix_rfl
  | .comp t args, p, u, v, l, h => by
    simp only [leaves] at h
    obtain ⟨j, _, hj⟩ := leavesAll_prefix T args (T t) 0 _ p l h
    exact (List.prefix_append p [j]).trans hj
theorem leavesAll_prefix (T : Str → List (ℕ × ℕ)) : ∀ (fs : List Func) (es : List (ℕ × ℕ)) (i : ℕ)
    (at_ : ℕ → Point) (p : List ℕ), ∀ l ∈ leavesAll T fs es i at_ p, ∃ j, i ≤ j ∧ p ++ [j] <+: l.path
  | [], es, i, at_, p, l, h => by simp [leavesAll] at h
  | f :: fs, [], i, at_, p, l, h => by simp [leavesAll] at h
  | f :: fs, e :: es, i, at_, p, l, h => by
    simp only [leavesAll, List.mem_append] at h
    rcases h with h | h
    · exact ⟨i, Nat.le_refl i, leaves_prefix T f (p ++ [i]) _ _ l h⟩
    · obtain ⟨j, h1, h2⟩ := leavesAll_prefix T fs es (i + 1) at_ p l h
      exact ⟨j, by omega, h2⟩
end

mutual
theorem leaves_nodup (T : Str → List (ℕ × ℕ)) : ∀ (f : Func) (p : List ℕ) (u v : Point),
    ((leaves T f p u v).map (·.path)).Nodup
  | .op x, p, u, v => by simp [leaves]
  | .comp t args, p, u, v => by
    simp only [leaves]
    exact leavesAll_nodup T args (T t) 0 _ p
theorem leavesAll_nodup (T : Str → List (ℕ × ℕ)) : ∀ (fs : List Func) (es : List (ℕ × ℕ)) (i : ℕ)
    (at_ : ℕ → Point) (p : List ℕ), ((leavesAll T fs es i at_ p).map (·.path)).Nodup
  | [], es, i, at_, p => by simp [leavesAll]
  | f :: fs, [], i, at_, p => by simp [leavesAll]
  | f :: fs, e :: es, i, at_, p => by
    simp only [leavesAll, List.map_append]
    rw [List.nodup_append]
    refine ⟨leaves_nodup T f _ _ _, leavesAll_nodup T fs es (i + 1) at_ p, ?_⟩
    intro a ha b hb
    obtain ⟨l, hl, rfl⟩ := List.mem_map.1 ha
    obtain ⟨l', hl', rfl⟩ := List.mem_map.1 hb
    intro h
    have h1 := leaves_prefix T f (p ++ [i]) _ _ l hl
    obtain ⟨j, h2, h3⟩ := leavesAll_prefix T fs es (i + 1) at_ p l' hl'
    rw [← h] at h3
    have := prefix_snoc_inj h1 h3
    omega
end

variable {S : Setup} {s : Draw} {Y : List Item} {L : List Leaf}

/-! ## Plain connections -/

theorem ilink_iff (hR : Reads Y L) (P Q : Point) : ILink S Y P Q ↔ Link S L P Q := by
  constructor
  · intro h
    refine Relation.ReflTransGen.mono ?_ _ _ h
    rintro P Q ⟨y, hy, ⟨op, h1, h2⟩, rfl, rfl⟩
    obtain ⟨l, hl, _, h4, h5, h6⟩ := hR.mem hy
    rw [h4] at h1
    injection h1 with h1
    exact ⟨l, hl, by rw [h1]; exact h2, h5, h6⟩
  · intro h
    refine Relation.ReflTransGen.mono ?_ _ _ h
    rintro P Q ⟨l, hl, h1, rfl, rfl⟩
    obtain ⟨y, hy, _, h4, h5, h6⟩ := hR.mem' hl
    exact ⟨y, hy, ⟨l.op, h4, h1⟩, h5.symm, h6.symm⟩

theorem Link.flow {P Q : Point} (h : Link S L P Q) : Flow S L P Q := by
  refine Relation.ReflTransGen.mono ?_ _ _ h
  rintro P Q ⟨l, hl, h1, h2⟩
  exact ⟨l, hl, h1.1, h2⟩

/-- An item that has been read and has a node is an operation that is a connection. -/
theorem live_step (hR : Reads Y L) {y : Item} (hy : y ∈ Y) (hl : Live S y) :
    ∃ l ∈ L, l.op ∉ S.zero ∧ l.tail = y.tail ∧ l.head = y.head := by
  obtain ⟨l, h1, _, h2, h3, h4⟩ := hR.mem hy
  exact ⟨l, h1, (hl _ h2).1, h3, h4⟩

/-! ## Nodes -/

theorem Inv.out_unique (h : Inv S s Y) {a : ℕ} {P Q : Point} (h1 : Out S Y a P) (h2 : Out S Y a Q) :
    P = Q := by
  rcases h1 with ⟨rfl, rfl⟩ | ⟨y, hy, _, rfl, rfl⟩ <;> rcases h2 with ⟨h3, rfl⟩ | ⟨z, hz, _, h3, rfl⟩
  · rfl
  · have := h.low z hz
    omega
  · have := h.low y hy
    omega
  · rw [List.inj_on_of_nodup_map h.ids hy hz h3]

theorem Inv.out_one (h : Inv S s Y) {P : Point} : ¬ Out S Y 1 P := by
  rintro (⟨h1, _⟩ | ⟨y, hy, _, h1, _⟩)
  · omega
  · have := h.low y hy
    omega

theorem Inv.no_edge_one (h : Inv S s Y) (b : ℕ) : ¬ s.g.Edge 1 b := by
  intro e
  obtain ⟨P, Q, h1, _⟩ := (h.edges _ _).1 e
  exact h.out_one h1

theorem Inv.flow_of_path (h : Inv S s Y) (hR : Reads Y L) {a b : ℕ} (hp : s.g.Path a b) :
    ∀ P, Out S Y a P → a = b ∨ ∃ Q, In S Y b Q ∧ Flow S L P Q := by
  induction hp with
  | here u => intro P _; exact Or.inl rfl
  | @step u v w e hp ih =>
    intro P hP
    right
    obtain ⟨P', Q', h1, h2, h3⟩ := (h.edges _ _).1 e
    obtain rfl := h.out_unique hP h1
    have h3' : Flow S L P Q' := ((ilink_iff hR _ _).1 h3).flow
    by_cases hvw : v = w
    · subst hvw
      exact ⟨Q', h2, h3'⟩
    · rcases h2 with ⟨rfl, rfl⟩ | ⟨y, hy, hl, rfl, rfl⟩
      · cases hp with
        | here => exact absurd rfl hvw
        | step e' _ => exact absurd e' (h.no_edge_one _)
      · rcases ih y.head (Or.inr ⟨y, hy, hl, rfl, rfl⟩) with h4 | ⟨Q, h4, h5⟩
        · exact absurd h4 hvw
        · exact ⟨Q, h4, h3'.trans (Relation.ReflTransGen.head (live_step hR hy hl) h5)⟩

theorem Inv.path_of_flow (h : Inv S s Y) (hR : Reads Y L) {b : ℕ} {P Q : Point} (hf : Flow S L P Q)
    (hb : In S Y b Q) : ∀ a P0, Out S Y a P0 → ILink S Y P0 P → s.g.Path a b := by
  induction hf using Relation.ReflTransGen.head_induction_on with
  | refl =>
    intro a P0 ha hl
    exact .step ((h.edges a b).2 ⟨P0, Q, ha, hb, hl⟩) (.here b)
  | head hstep _ ih =>
    intro a P0 ha hl
    obtain ⟨l, hlL, h1, rfl, rfl⟩ := hstep
    obtain ⟨y, hy, _, h4, h5, h6⟩ := hR.mem' hlL
    by_cases hi : l.op ∈ S.ident
    · refine ih a P0 ha (Relation.ReflTransGen.tail hl ?_)
      exact ⟨y, hy, ⟨l.op, h4, h1, hi⟩, h5.symm, h6.symm⟩
    · have hlive : Live S y := by
        intro op ho
        rw [h4] at ho
        injection ho with ho
        exact ho ▸ ⟨h1, hi⟩
      refine .step (v := y.n) ((h.edges _ _).2 ⟨P0, _, ha, Or.inr ⟨y, hy, hlive, rfl, rfl⟩, ?_⟩) ?_
      · rw [← h5]
        exact hl
      · exact ih y.n y.head (Or.inr ⟨y, hy, hlive, rfl, rfl⟩) (by rw [h6]; exact .refl)

theorem Inv.in_unique (h : Inv S s Y) {a : ℕ} {P Q : Point} (h1 : In S Y a P) (h2 : In S Y a Q) :
    P = Q := by
  rcases h1 with ⟨rfl, rfl⟩ | ⟨y, hy, _, rfl, rfl⟩ <;> rcases h2 with ⟨h3, rfl⟩ | ⟨z, hz, _, h3, rfl⟩
  · rfl
  · have := h.low z hz
    omega
  · have := h.low y hy
    omega
  · rw [List.inj_on_of_nodup_map h.ids hy hz h3]

theorem Inv.path_iff (h : Inv S s Y) (hR : Reads Y L) {a b : ℕ} {P Q : Point} (ha : Out S Y a P)
    (hb : In S Y b Q) (hab : a ≠ b) : s.g.Path a b ↔ Flow S L P Q := by
  constructor
  · intro hp
    rcases h.flow_of_path hR hp P ha with h1 | ⟨Q', h1, h2⟩
    · exact absurd h1 hab
    · rw [h.in_unique hb h1]
      exact h2
  · intro hf
    exact h.path_of_flow hR hf hb a P ha .refl

/-- The number of the item at a place. -/
def numOf (Y : List Item) (p : List ℕ) : ℕ :=
  match Y.find? (fun y => y.path = p) with
  | some y => y.n
  | none => 0

theorem numOf_eq (hd : (Y.map (·.path)).Nodup) {y : Item} (hy : y ∈ Y) : numOf Y y.path = y.n := by
  unfold numOf
  cases hf : Y.find? (fun z => z.path = y.path) with
  | none =>
    have := List.find?_eq_none.1 hf y hy
    simp at this
  | some z =>
    have hz := List.mem_of_find?_eq_some hf
    have hp := List.find?_some hf
    simp only [decide_eq_true_eq] at hp
    rw [List.inj_on_of_nodup_map hd hz hy hp]

theorem Reads.paths (hR : Reads Y L) : Y.map (·.path) = L.map (·.path) := by
  have := congrArg (List.map Prod.fst) hR
  simpa [List.map_map, Function.comp_def] using this

/-- What remains after pruning shows the picture. -/
theorem Inv.shows (h : Inv S s Y) (hR : Reads Y L) (hd : (L.map (·.path)).Nodup)
    (hflow : Flow S L .source .sink) {g : Graph}
    (hn : ∀ n, n ∈ g.nodes ↔ s.g.Useful 0 1 n)
    (he : ∀ u v, g.Edge u v ↔ s.g.Edge u v ∧ s.g.Useful 0 1 u ∧ s.g.Useful 0 1 v) :
    Shows S L g s.label (numOf Y) := by
  have hdY : (Y.map (·.path)).Nodup := by rw [hR.paths]; exact hd
  have h01 : s.g.Path 0 1 := (h.path_iff hR (Or.inl ⟨rfl, rfl⟩) (Or.inl ⟨rfl, rfl⟩) (by omega)).2 hflow
  have hu0 : s.g.Useful 0 1 0 := ⟨(h.nodes 0).2 (Or.inl rfl), .here 0, h01⟩
  have hu1 : s.g.Useful 0 1 1 := ⟨(h.nodes 1).2 (Or.inr (Or.inl rfl)), h01, .here 1⟩
  -- a used operation has a node
  have hused : ∀ l, Used S L l → ∃ y ∈ Y, Live S y ∧ y.path = l.path ∧ y.op = some l.op ∧
      y.tail = l.tail ∧ y.head = l.head ∧ numOf Y l.path = y.n ∧ s.g.Useful 0 1 y.n := by
    rintro l ⟨hl, hpr, hf1, hf2⟩
    obtain ⟨y, hy, h1, h2, h3, h4⟩ := hR.mem' hl
    have hlive : Live S y := by
      intro op ho
      rw [h2] at ho
      injection ho with ho
      exact ho ▸ hpr
    have hlow := h.low y hy
    refine ⟨y, hy, hlive, h1.symm, h2, h3.symm, h4.symm, by rw [h1, numOf_eq hdY hy],
      (h.nodes _).2 (Or.inr (Or.inr ⟨y, hy, hlive, rfl⟩)), ?_, ?_⟩
    · refine (h.path_iff hR (Or.inl ⟨rfl, rfl⟩) (Or.inr ⟨y, hy, hlive, rfl, rfl⟩) (by omega)).2 ?_
      rw [← h3]
      exact hf1
    · refine (h.path_iff hR (Or.inr ⟨y, hy, hlive, rfl, rfl⟩) (Or.inl ⟨rfl, rfl⟩) (by omega)).2 ?_
      rw [← h4]
      exact hf2
  have huse : ∀ y ∈ Y, Live S y → s.g.Useful 0 1 y.n → ∃ l, Used S L l ∧ y.n = numOf Y l.path ∧
      l.tail = y.tail ∧ l.head = y.head := by
    rintro y hy hlive ⟨_, hp1, hp2⟩
    obtain ⟨l, hl, h1, h2, h3, h4⟩ := hR.mem hy
    have hlow := h.low y hy
    refine ⟨l, ⟨hl, hlive _ h2, ?_, ?_⟩, by rw [h1, numOf_eq hdY hy], h3, h4⟩
    · rw [h3]
      exact (h.path_iff hR (Or.inl ⟨rfl, rfl⟩) (Or.inr ⟨y, hy, hlive, rfl, rfl⟩) (by omega)).1 hp1
    · rw [h4]
      exact (h.path_iff hR (Or.inr ⟨y, hy, hlive, rfl, rfl⟩) (Or.inl ⟨rfl, rfl⟩) (by omega)).1 hp2
  refine ⟨?_, ?_, ?_, h.input, h.output, ?_, ?_⟩
  · intro l l' hl hl' e
    obtain ⟨y, hy, _, h1, _, _, _, h2, _⟩ := hused l hl
    obtain ⟨y', hy', _, h1', _, _, _, h2', _⟩ := hused l' hl'
    have : y = y' := List.inj_on_of_nodup_map h.ids hy hy' (by rw [← h2, ← h2', e])
    exact List.inj_on_of_nodup_map hd hl.1 hl'.1 (by rw [← h1, ← h1', this])
  · intro l hl
    obtain ⟨y, hy, _, _, _, _, _, h2, _⟩ := hused l hl
    have := h.low y hy
    omega
  · intro n
    rw [hn]
    constructor
    · intro hu
      rcases (h.nodes n).1 hu.1 with rfl | rfl | ⟨y, hy, hl, rfl⟩
      · exact Or.inl rfl
      · exact Or.inr (Or.inl rfl)
      · obtain ⟨l, h1, h2, _⟩ := huse y hy hl hu
        exact Or.inr (Or.inr ⟨l, h1, h2⟩)
    · rintro (rfl | rfl | ⟨l, hl, rfl⟩)
      · exact hu0
      · exact hu1
      · obtain ⟨y, _, _, _, _, _, _, h2, h3⟩ := hused l hl
        rw [h2]
        exact h3
  · intro l hl
    obtain ⟨y, hy, _, _, h1, _, _, h2, _⟩ := hused l hl
    rw [h2]
    exact h.labels y hy _ h1 hl.2.1
  · intro a b
    rw [he]
    constructor
    · rintro ⟨e, hua, hub⟩
      obtain ⟨P, Q, h1, h2, h3⟩ := (h.edges a b).1 e
      refine ⟨P, Q, ?_, ?_, (ilink_iff hR _ _).1 h3⟩
      · rcases h1 with h1 | ⟨y, hy, hl, rfl, rfl⟩
        · exact Or.inl h1
        · obtain ⟨l, h4, h5, _, h6⟩ := huse y hy hl hua
          exact Or.inr ⟨l, h4, h5, h6.symm⟩
      · rcases h2 with h2 | ⟨y, hy, hl, rfl, rfl⟩
        · exact Or.inl h2
        · obtain ⟨l, h4, h5, h6, _⟩ := huse y hy hl hub
          exact Or.inr ⟨l, h4, h5, h6.symm⟩
    · rintro ⟨P, Q, h1, h2, h3⟩
      have ha : Out S Y a P ∧ s.g.Useful 0 1 a := by
        rcases h1 with ⟨rfl, rfl⟩ | ⟨l, hl, rfl, rfl⟩
        · exact ⟨Or.inl ⟨rfl, rfl⟩, hu0⟩
        · obtain ⟨y, hy, hlive, _, _, _, h4, h5, h6⟩ := hused l hl
          rw [h5]
          exact ⟨Or.inr ⟨y, hy, hlive, rfl, h4.symm⟩, h6⟩
      have hb : In S Y b Q ∧ s.g.Useful 0 1 b := by
        rcases h2 with ⟨rfl, rfl⟩ | ⟨l, hl, rfl, rfl⟩
        · exact ⟨Or.inl ⟨rfl, rfl⟩, hu1⟩
        · obtain ⟨y, hy, hlive, _, _, h4, _, h5, h6⟩ := hused l hl
          rw [h5]
          exact ⟨Or.inr ⟨y, hy, hlive, rfl, h4.symm⟩, h6⟩
      exact ⟨(h.edges a b).2 ⟨P, Q, ha.1, hb.1, (ilink_iff hR _ _).2 h3⟩, ha.2, hb.2⟩

end Verif.Repr
