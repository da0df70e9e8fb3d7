import Verif.Repr.DrawLemmas

/-! # Reading a topology -/

namespace Verif.Repr

open Verif.Gram (Str Func)
open Verif.Arch (Graph)

variable {S : Setup}

/-- The items for the edges of a topology. -/
def items : List ℕ → List (ℕ × ℕ) → ℕ → (ℕ → Point) → List ℕ → List Item
  | n :: ns, e :: es, i, at_, p => ⟨n, p ++ [i], none, at_ e.1, at_ e.2⟩ :: items ns es (i + 1) at_ p
  | _, _, _, _, _ => []

theorem items_n (f : ℕ × ℕ → ℕ) (es : List (ℕ × ℕ)) : ∀ (i : ℕ) (at_ : ℕ → Point) (p : List ℕ),
    (items (es.map f) es i at_ p).map (·.n) = es.map f := by
  induction es with
  | nil => intro i at_ p; rfl
  | cons e es ih =>
    intro i at_ p
    simp only [List.map_cons, items, ih]

theorem mem_items {f : ℕ × ℕ → ℕ} {es : List (ℕ × ℕ)} {at_ : ℕ → Point} {p : List ℕ} {y : Item} :
    ∀ {i : ℕ}, y ∈ items (es.map f) es i at_ p → ∃ e ∈ es, y.n = f e ∧ y.op = none ∧
      y.tail = at_ e.1 ∧ y.head = at_ e.2 := by
  induction es with
  | nil => intro i h; cases h
  | cons e es ih =>
    intro i h
    simp only [List.map_cons, items, List.mem_cons] at h
    rcases h with rfl | h
    · exact ⟨e, by simp, rfl, rfl, rfl, rfl⟩
    · obtain ⟨e', he, h⟩ := ih h
      exact ⟨e', by simp [he], h⟩

theorem exists_items {f : ℕ × ℕ → ℕ} {es : List (ℕ × ℕ)} {at_ : ℕ → Point} {p : List ℕ} {e : ℕ × ℕ}
    (he : e ∈ es) : ∀ {i : ℕ}, ∃ y ∈ items (es.map f) es i at_ p, y.n = f e ∧ y.op = none ∧
      y.tail = at_ e.1 ∧ y.head = at_ e.2 := by
  induction es with
  | nil => cases he
  | cons e' es ih =>
    intro i
    simp only [List.map_cons, items, List.mem_cons]
    rcases List.mem_cons.1 he with rfl | he
    · exact ⟨_, Or.inl rfl, rfl, rfl, rfl, rfl⟩
    · obtain ⟨y, hy, h⟩ := ih he (i := i + 1)
      exact ⟨y, Or.inr hy, h⟩

theorem spot_fst {es : List (ℕ × ℕ)} {src tgt : ℕ} (h : Ends es src tgt) {e : ℕ × ℕ} (he : e ∈ es)
    (p : List ℕ) (u v : Point) :
    (e.1 = src ∧ spot es p u v e.1 = u) ∨ (e.1 ≠ src ∧ spot es p u v e.1 = .inner p e.1) := by
  have h1 : e.1 ∈ es.map (·.1) := List.mem_map_of_mem he
  by_cases hs : e.1 = src
  · exact Or.inl ⟨hs, if_pos ((h.source _).2 hs).2⟩
  · have h2 : e.1 ∈ es.map (·.2) := by
      by_contra hc
      exact hs ((h.source _).1 ⟨h1, hc⟩)
    refine Or.inr ⟨hs, ?_⟩
    unfold spot
    rw [if_neg (by simpa using h2), if_neg (by simpa using h1)]

theorem spot_snd {es : List (ℕ × ℕ)} {src tgt : ℕ} (h : Ends es src tgt) {e : ℕ × ℕ} (he : e ∈ es)
    (p : List ℕ) (u v : Point) :
    (e.2 = tgt ∧ spot es p u v e.2 = v) ∨ (e.2 ≠ tgt ∧ spot es p u v e.2 = .inner p e.2) := by
  have h1 : e.2 ∈ es.map (·.2) := List.mem_map_of_mem he
  by_cases hs : e.2 = tgt
  · refine Or.inl ⟨hs, ?_⟩
    unfold spot
    rw [if_neg (by simpa using h1), if_pos ((h.sink _).2 hs).2]
  · have h2 : e.2 ∈ es.map (·.1) := by
      by_contra hc
      exact hs ((h.sink _).1 ⟨h1, hc⟩)
    refine Or.inr ⟨hs, ?_⟩
    unfold spot
    rw [if_neg (by simpa using h1), if_neg (by simpa using h2)]

/-- Where an edge ends another one begins, or it ends at the end of the topology. -/
theorem Ends.inner {es : List (ℕ × ℕ)} {src tgt : ℕ} (h : Ends es src tgt) {e e' : ℕ × ℕ}
    (he : e ∈ es) (he' : e' ∈ es) (hee : e'.2 = e.1) : e'.2 ≠ tgt ∧ e.1 ≠ src := by
  constructor
  · intro hc
    exact ((h.sink _).2 hc).2 (hee ▸ List.mem_map_of_mem he)
  · intro hc
    exact ((h.source _).2 hc).2 (hee ▸ List.mem_map_of_mem he')

/-- The order of the graph after a topology has been put in place of a node. -/
theorem rank_expand {es : List (ℕ × ℕ)} {off : ℕ} (hs : Sensible es) {E E' : ℕ → ℕ → Prop} {n : ℕ}
    (ho : ∀ a b, E a b → a ≤ off ∧ b ≤ off) {r : ℕ → ℕ}
    (hr : ∀ a b, E a b → r a < r b)
    (hE : ∀ a b, E' a b → E a b ∨ (∃ e ∈ es, E a n ∧ b = edgeNode es e + off) ∨
      (∃ e ∈ es, E n b ∧ a = edgeNode es e + off) ∨
      ∃ e ∈ es, ∃ e' ∈ es, e'.2 = e.1 ∧ a = edgeNode es e' + off ∧ b = edgeNode es e + off) :
    ∃ r' : ℕ → ℕ, ∀ a b, E' a b → r' a < r' b := by
  obtain ⟨q, hq⟩ := hs.acyclic
  set K := (es.map fun e => q e.1).foldl max 0 + 1 with hK
  have hlt : ∀ e ∈ es, q e.1 < K := by
    intro e he
    have := (le_foldl_max (es.map fun e => q e.1) 0).2 (q e.1) (List.mem_map.2 ⟨e, he, rfl⟩)
    omega
  let R : ℕ → ℕ := fun m => match es[m - off - 2]? with | some e => q e.1 | none => 0
  have hR : ∀ e ∈ es, R (edgeNode es e + off) = q e.1 := by
    intro e he
    have h1 := edgeNode_eq hs.nodup he
    have h2 : es[es.idxOf e]? = some e := List.getElem?_idxOf he
    have h3 : edgeNode es e + off - off - 2 = es.idxOf e := by omega
    simp only [R]
    rw [h3, h2]
  have t := two_le_edgeNode es
  refine ⟨fun m => if m ≤ off then r m * K else r n * K + R m, fun a b e => ?_⟩
  have mul : ∀ x y, x < y → x * K + K ≤ y * K := by
    intro x y hxy
    calc x * K + K = (x + 1) * K := by rw [Nat.add_mul, Nat.one_mul]
      _ ≤ y * K := Nat.mul_le_mul_right K hxy
  have hK0 : 0 < K := by omega
  rcases hE a b e with h | ⟨f, hf, h, rfl⟩ | ⟨f, hf, h, rfl⟩ | ⟨f, hf, f', hf', h, rfl, rfl⟩
  · have h1 := ho a b h
    have h2 := mul _ _ (hr a b h)
    simp only [h1.1, h1.2, if_true]
    omega
  · have h1 := ho a n h
    have h2 := mul _ _ (hr a n h)
    have := t f
    simp only [h1.1, if_true]
    rw [if_neg (by omega), hR f hf]
    omega
  · have h1 := ho n b h
    have h2 := mul _ _ (hr n b h)
    have := t f
    have := hlt f hf
    simp only [h1.2, if_true]
    rw [if_neg (by omega), hR f hf]
    omega
  · have := t f
    have := t f'
    simp only
    rw [if_neg (by omega), if_neg (by omega), hR f hf, hR f' hf']
    have := hq f' hf'
    rw [h] at this
    omega

theorem Inv.wf {s : Draw} {X : List Item} (h : Inv S s X) : s.g.WF := by
  intro u v e
  obtain ⟨P, Q, h1, h2, _⟩ := (h.edges u v).1 e
  rw [h.nodes, h.nodes]
  constructor
  · rcases h1 with ⟨rfl, _⟩ | ⟨y, hy, hl, rfl, _⟩
    · exact Or.inl rfl
    · exact Or.inr (Or.inr ⟨y, hy, hl, rfl⟩)
  · rcases h2 with ⟨rfl, _⟩ | ⟨y, hy, hl, rfl, _⟩
    · exact Or.inr (Or.inl rfl)
    · exact Or.inr (Or.inr ⟨y, hy, hl, rfl⟩)

/-- A topology is read: its edges take the place of the item on top of the stack. -/
theorem topology_ok {s : Draw} {A B : List Item} {x : Item} {st : List ℕ} {es : List (ℕ × ℕ)}
    {src tgt : ℕ} (h : Inv S s (A ++ x :: B)) (hx : x.op = none) (hst : s.stack = x.n :: st)
    (hs : Sensible es) (hends : Ends es src tgt) (hnb : ∃ b, s.g.Edge x.n b)
    (hfresh : ∀ y ∈ A ++ x :: B, ∀ q, y.tail ≠ .inner x.path q ∧ y.head ≠ .inner x.path q) :
    ∃ s', s.topology ⟨nodeEdges es src tgt, es.map (edgeNode es), (0, 1)⟩ = some s' ∧
      s'.stack = es.map (fun e => edgeNode es e + s.offset) ++ st ∧
      Inv S s' (A ++ items (es.map fun e => edgeNode es e + s.offset) es 0
        (spot es x.path x.tail x.head) x.path ++ B) := by
  have hne := h.ne
  have hxl : Live S x := pending_live hx
  have hxp : ¬ Pass S x := pending_not_pass hx
  have hxm : x ∈ A ++ x :: B := mem_mid.2 (Or.inl rfl)
  have hmem : x.n ∈ s.g.nodes := (h.nodes _).2 (Or.inr (Or.inr ⟨x, hxm, hxl, rfl⟩))
  have hlow := h.low x hxm
  have t := two_le_edgeNode es
  have hnode : ∀ m ∈ s.g.nodes, m ≤ s.offset := by
    intro m hm
    rcases (h.nodes m).1 hm with rfl | rfl | ⟨y, hy, _, rfl⟩
    · omega
    · omega
    · exact (h.low y hy).2
  obtain ⟨r, hr⟩ := h.order
  set f : ℕ × ℕ → ℕ := fun e => edgeNode es e + s.offset with hf
  set p := x.path with hp
  set at_ := spot es p x.tail x.head with hat
  set K := items (es.map f) es 0 at_ p with hK
  have hmemX : ∀ y, y ∈ A ++ K ++ B ↔ y ∈ K ∨ y ∈ A ++ B := by
    intro y
    simp only [List.mem_append]
    tauto
  -- plain connections are the same as before
  have hlink : ∀ P Q, ILink S (A ++ K ++ B) P Q ↔ ILink S (A ++ x :: B) P Q := by
    intro P Q
    constructor
    · refine ILink.mono fun y hy hpy => ?_
      rcases (hmemX y).1 hy with hy | hy
      · obtain ⟨e, _, _, ho, _⟩ := mem_items hy
        exact absurd hpy (pending_not_pass ho)
      · exact ⟨y, mem_mid.2 (Or.inr hy), hpy, rfl, rfl⟩
    · refine ILink.mono fun y hy hpy => ?_
      rcases mem_mid.1 hy with rfl | hy
      · exact absurd hpy hxp
      · exact ⟨y, (hmemX y).2 (Or.inr hy), hpy, rfl, rfl⟩
  have hto : ∀ P q, ILink S (A ++ x :: B) P (.inner p q) → P = .inner p q := by
    intro P q hl
    rcases Relation.ReflTransGen.cases_tail hl with h1 | ⟨R, _, y, hy, _, _, h1⟩
    · exact h1.symm
    · exact absurd h1 (hfresh y hy q).2
  have hfrom : ∀ Q q, ILink S (A ++ x :: B) (.inner p q) Q → Q = .inner p q := by
    intro Q q hl
    rcases Relation.ReflTransGen.cases_head hl with h1 | ⟨R, ⟨y, hy, _, h1, _⟩, _⟩
    · exact h1.symm
    · exact absurd h1 (hfresh y hy q).1
  -- the ends of nodes
  have hout : ∀ a P, Out S (A ++ K ++ B) a P ↔
      (Out S (A ++ x :: B) a P ∧ a ≠ x.n) ∨ ∃ e ∈ es, a = f e ∧ P = at_ e.2 := by
    intro a P
    constructor
    · rintro (⟨rfl, rfl⟩ | ⟨y, hy, hl, rfl, rfl⟩)
      · exact Or.inl ⟨Or.inl ⟨rfl, rfl⟩, by omega⟩
      · rcases (hmemX y).1 hy with hy | hy
        · obtain ⟨e, he, h1, _, _, h2⟩ := mem_items hy
          exact Or.inr ⟨e, he, h1, h2⟩
        · exact Or.inl ⟨Or.inr ⟨y, mem_mid.2 (Or.inr hy), hl, rfl, rfl⟩, hne y hy⟩
    · rintro (⟨⟨rfl, rfl⟩ | ⟨y, hy, hl, rfl, rfl⟩, hn⟩ | ⟨e, he, rfl, rfl⟩)
      · exact Or.inl ⟨rfl, rfl⟩
      · rcases mem_mid.1 hy with rfl | hy
        · exact absurd rfl hn
        · exact Or.inr ⟨y, (hmemX y).2 (Or.inr hy), hl, rfl, rfl⟩
      · obtain ⟨y, hy, h1, h2, _, h3⟩ := exists_items (f := f) (at_ := at_) (p := p) he (i := 0)
        exact Or.inr ⟨y, (hmemX y).2 (Or.inl hy), pending_live h2, h1.symm, h3.symm⟩
  have hin : ∀ a P, In S (A ++ K ++ B) a P ↔
      (In S (A ++ x :: B) a P ∧ a ≠ x.n) ∨ ∃ e ∈ es, a = f e ∧ P = at_ e.1 := by
    intro a P
    constructor
    · rintro (⟨rfl, rfl⟩ | ⟨y, hy, hl, rfl, rfl⟩)
      · exact Or.inl ⟨Or.inl ⟨rfl, rfl⟩, by omega⟩
      · rcases (hmemX y).1 hy with hy | hy
        · obtain ⟨e, he, h1, _, h2, _⟩ := mem_items hy
          exact Or.inr ⟨e, he, h1, h2⟩
        · exact Or.inl ⟨Or.inr ⟨y, mem_mid.2 (Or.inr hy), hl, rfl, rfl⟩, hne y hy⟩
    · rintro (⟨⟨rfl, rfl⟩ | ⟨y, hy, hl, rfl, rfl⟩, hn⟩ | ⟨e, he, rfl, rfl⟩)
      · exact Or.inl ⟨rfl, rfl⟩
      · rcases mem_mid.1 hy with rfl | hy
        · exact absurd rfl hn
        · exact Or.inr ⟨y, (hmemX y).2 (Or.inr hy), hl, rfl, rfl⟩
      · obtain ⟨y, hy, h1, h2, h3, _⟩ := exists_items (f := f) (at_ := at_) (p := p) he (i := 0)
        exact Or.inr ⟨y, (hmemX y).2 (Or.inl hy), pending_live h2, h1.symm, h3.symm⟩
  have hinx : ∀ Q, In S (A ++ x :: B) x.n Q ↔ Q = x.tail := by
    intro Q
    constructor
    · rintro (⟨h1, _⟩ | ⟨y, hy, _, h1, rfl⟩)
      · omega
      · rcases mem_mid.1 hy with rfl | hy
        · rfl
        · exact absurd h1.symm (hne y hy)
    · rintro rfl
      exact Or.inr ⟨x, hxm, hxl, rfl, rfl⟩
  have houtx : ∀ Q, Out S (A ++ x :: B) x.n Q ↔ Q = x.head := by
    intro Q
    constructor
    · rintro (⟨h1, _⟩ | ⟨y, hy, _, h1, rfl⟩)
      · omega
      · rcases mem_mid.1 hy with rfl | hy
        · rfl
        · exact absurd h1.symm (hne y hy)
    · rintro rfl
      exact Or.inr ⟨x, hxm, hxl, rfl, rfl⟩
  have houtf : ∀ a q, ¬ Out S (A ++ x :: B) a (.inner p q) := by
    rintro a q (⟨_, h1⟩ | ⟨y, hy, _, _, h1⟩)
    · cases h1
    · exact (hfresh y hy q).2 h1.symm
  have hinf : ∀ a q, ¬ In S (A ++ x :: B) a (.inner p q) := by
    rintro a q (⟨_, h1⟩ | ⟨y, hy, _, _, h1⟩)
    · cases h1
    · exact (hfresh y hy q).1 h1.symm
  have hself : ¬ ILink S (A ++ x :: B) x.head x.tail := by
    intro hl
    have := hr x.n x.n ((h.edges _ _).2 ⟨_, _, (houtx _).2 rfl, (hinx _).2 rfl, hl⟩)
    omega
  -- the new edges
  have hnew : ∀ a b, (a, b) ∈ ((nodeEdges es src tgt).flatMap fun e =>
        if ¬ (e.1 = 0 ∨ e.2 = 1) then [(e.1 + s.offset, e.2 + s.offset)]
        else if e.1 = 0 then (s.g.preds x.n).map fun a => (a, e.2 + s.offset)
        else (s.g.succs x.n).map fun b => (e.1 + s.offset, b)) ↔
      (∃ e ∈ es, e.1 = src ∧ s.g.Edge a x.n ∧ b = f e) ∨
      (∃ e ∈ es, e.2 = tgt ∧ s.g.Edge x.n b ∧ a = f e) ∨
      ∃ e ∈ es, ∃ e' ∈ es, e'.2 = e.1 ∧ a = f e' ∧ b = f e := by
    intro a b
    rw [List.mem_flatMap]
    constructor
    · rintro ⟨⟨u, v⟩, huv, hm⟩
      rcases mem_nodeEdges.1 huv with ⟨e, he, h1, rfl, rfl⟩ | ⟨e, he, h1, rfl, rfl⟩ |
        ⟨e, he, e', he', h1, rfl, rfl⟩
      · simp only [true_or, not_true_eq_false, if_false, if_true, List.mem_map, mem_preds',
          Prod.mk.injEq] at hm
        obtain ⟨a', ha, rfl, rfl⟩ := hm
        exact Or.inl ⟨e, he, h1, ha, rfl⟩
      · have := t e
        simp only [or_true, not_true_eq_false, if_false, List.mem_map, mem_succs',
          show edgeNode es e ≠ 0 by omega, Prod.mk.injEq] at hm
        obtain ⟨b', hb, rfl, rfl⟩ := hm
        exact Or.inr (Or.inl ⟨e, he, h1, hb, rfl⟩)
      · have := t e
        have := t e'
        simp only [show edgeNode es e' ≠ 0 by omega, show edgeNode es e ≠ 1 by omega, or_false,
          not_false_eq_true, if_true, List.mem_singleton, Prod.mk.injEq] at hm
        exact Or.inr (Or.inr ⟨e, he, e', he', h1, hm⟩)
    · rintro (⟨e, he, h1, h2, rfl⟩ | ⟨e, he, h1, h2, rfl⟩ | ⟨e, he, e', he', h1, rfl, rfl⟩)
      · refine ⟨(0, edgeNode es e), mem_nodeEdges.2 (Or.inl ⟨e, he, h1, rfl, rfl⟩), ?_⟩
        simp only [true_or, not_true_eq_false, if_false, if_true, List.mem_map, mem_preds',
          Prod.mk.injEq]
        exact ⟨a, h2, rfl, rfl⟩
      · have := t e
        refine ⟨(edgeNode es e, 1), mem_nodeEdges.2 (Or.inr (Or.inl ⟨e, he, h1, rfl, rfl⟩)), ?_⟩
        simp only [or_true, not_true_eq_false, if_false, List.mem_map, mem_succs',
          show edgeNode es e ≠ 0 by omega, Prod.mk.injEq]
        exact ⟨b, h2, rfl, rfl⟩
      · have := t e
        have := t e'
        refine ⟨(edgeNode es e', edgeNode es e),
          mem_nodeEdges.2 (Or.inr (Or.inr ⟨e, he, e', he', h1, rfl, rfl⟩)), ?_⟩
        simp only [show edgeNode es e' ≠ 0 by omega, show edgeNode es e ≠ 1 by omega, or_false,
          not_false_eq_true, if_true, List.mem_singleton]
        rfl
  have hpn : ∀ a, s.g.Edge a x.n → a ≠ x.n := by
    rintro a e rfl
    have := hr _ _ e
    omega
  have hsn : ∀ a, s.g.Edge x.n a → a ≠ x.n := by
    rintro a e rfl
    have := hr _ _ e
    omega
  have hedge : ∀ a b, (addEdges (s.g.removeNode x.n) ((nodeEdges es src tgt).flatMap fun e =>
        if ¬ (e.1 = 0 ∨ e.2 = 1) then [(e.1 + s.offset, e.2 + s.offset)]
        else if e.1 = 0 then (s.g.preds x.n).map fun a => (a, e.2 + s.offset)
        else (s.g.succs x.n).map fun b => (e.1 + s.offset, b))).Edge a b ↔
      (s.g.Edge a b ∧ a ≠ x.n ∧ b ≠ x.n) ∨
      (∃ e ∈ es, e.1 = src ∧ s.g.Edge a x.n ∧ b = f e) ∨
      (∃ e ∈ es, e.2 = tgt ∧ s.g.Edge x.n b ∧ a = f e) ∨
      ∃ e ∈ es, ∃ e' ∈ es, e'.2 = e.1 ∧ a = f e' ∧ b = f e := by
    intro a b
    rw [edge_addEdges, edge_remove, hnew]
  unfold Draw.topology
  rw [hst]
  simp only [hmem, if_true]
  refine ⟨_, rfl, by simp [f, Function.comp_def], ?_, ?_, fun m => ?_,
    nodup_addEdges (nodup_remove h.nodup), fun a b => ?_, ?_, h.input, h.output,
    rank_expand (E := s.g.Edge) (n := x.n) hs
      (fun a b e => ⟨hnode a (h.wf a b e).1, hnode b (h.wf a b e).2⟩) hr fun a b e => ?_, h.ends⟩
  · -- numbers
    have hperm : ((A ++ K ++ B).map (·.n)).Perm (es.map f ++ (A ++ B).map (·.n)) := by
      have : (A ++ K ++ B).Perm (K ++ (A ++ B)) := by
        rw [List.append_assoc]
        exact List.perm_append_comm_assoc A K B
      have h2 := this.map (·.n)
      rw [List.map_append (l₁ := K), hK, items_n] at h2
      exact h2
    rw [hperm.nodup_iff, List.nodup_append]
    refine ⟨?_, ?_, ?_⟩
    · refine List.Nodup.map_on (fun e he e' he' hee => ?_) hs.nodup
      exact edgeNode_inj hs.nodup he he' (by simp only [f] at hee; omega)
    · have h1 := h.ids
      rw [List.map_append, List.map_cons, List.nodup_middle, List.nodup_cons] at h1
      rw [List.map_append]
      exact h1.2
    · intro a ha b hb
      obtain ⟨e, he, rfl⟩ := List.mem_map.1 ha
      obtain ⟨y, hy, rfl⟩ := List.mem_map.1 hb
      have h1 := h.low y (mem_mid.2 (Or.inr hy))
      have h2 := t e
      simp only [f]
      omega
  · intro y hy
    simp only
    rcases (hmemX y).1 hy with hy | hy
    · obtain ⟨e, he, h1, _⟩ := mem_items hy
      have h2 := (le_foldl_max (es.map (edgeNode es)) 0).2 _ (List.mem_map_of_mem he)
      have h3 := t e
      simp only [f] at h1
      omega
    · have h1 := h.low y (mem_mid.2 (Or.inr hy))
      omega
  · -- nodes
    simp only
    rw [mem_addEdges, mem_remove]
    constructor
    · rintro (⟨hm, hn⟩ | ⟨⟨a, b⟩, he, hab⟩)
      · rcases (h.nodes m).1 hm with h0 | h0 | ⟨y, hy, hl, rfl⟩
        · exact Or.inl h0
        · exact Or.inr (Or.inl h0)
        · rcases mem_mid.1 hy with rfl | hy
          · exact absurd rfl hn
          · exact Or.inr (Or.inr ⟨y, (hmemX y).2 (Or.inr hy), hl, rfl⟩)
      · have hold : ∀ k, k ∈ s.g.nodes → k ≠ x.n → (k = 0 ∨ k = 1 ∨
            ∃ y ∈ A ++ K ++ B, Live S y ∧ k = y.n) := by
          intro k hk hn
          rcases (h.nodes k).1 hk with h0 | h0 | ⟨y, hy, hl, rfl⟩
          · exact Or.inl h0
          · exact Or.inr (Or.inl h0)
          · rcases mem_mid.1 hy with rfl | hy
            · exact absurd rfl hn
            · exact Or.inr (Or.inr ⟨y, (hmemX y).2 (Or.inr hy), hl, rfl⟩)
        have hnw : ∀ e ∈ es, (f e = 0 ∨ f e = 1 ∨ ∃ y ∈ A ++ K ++ B, Live S y ∧ f e = y.n) := by
          intro e he
          obtain ⟨y, hy, h1, h2, _, _⟩ := exists_items (f := f) (at_ := at_) (p := p) he (i := 0)
          exact Or.inr (Or.inr ⟨y, (hmemX y).2 (Or.inl hy), pending_live h2, h1.symm⟩)
        replace he := (hnew a b).1 he
        rcases he with ⟨e, he, _, h2, rfl⟩ | ⟨e, he, _, h2, rfl⟩ |
          ⟨e, he, e', he', _, rfl, rfl⟩
        · rcases hab with rfl | rfl
          · exact hold _ (h.wf _ _ h2).1 (hpn _ h2)
          · exact hnw e he
        · rcases hab with rfl | rfl
          · exact hnw e he
          · exact hold _ (h.wf _ _ h2).2 (hsn _ h2)
        · rcases hab with rfl | rfl
          · exact hnw e' he'
          · exact hnw e he
    · rintro (rfl | rfl | ⟨y, hy, hl, rfl⟩)
      · exact Or.inl ⟨(h.nodes 0).2 (Or.inl rfl), by omega⟩
      · exact Or.inl ⟨(h.nodes 1).2 (Or.inr (Or.inl rfl)), by omega⟩
      · rcases (hmemX y).1 hy with hy | hy
        · right
          obtain ⟨e, he, h1, _⟩ := mem_items hy
          rw [h1]
          by_cases hs1 : e.1 = src
          · -- the node has a predecessor only if the old one had: look at the successors as well
            by_cases hs2 : e.2 = tgt
            · obtain ⟨b, hb⟩ := hnb
              exact ⟨(f e, b), (hnew _ _).2 (Or.inr (Or.inl ⟨e, he, hs2, hb, rfl⟩)), Or.inl rfl⟩
            · have : e.2 ∈ es.map (·.1) := by
                by_contra hc
                exact hs2 ((hends.sink e.2).1 ⟨List.mem_map_of_mem he, hc⟩)
              obtain ⟨e', he', h'⟩ := List.mem_map.1 this
              exact ⟨(f e, f e'), (hnew _ _).2 (Or.inr (Or.inr ⟨e', he', e, he, h'.symm, rfl, rfl⟩)),
                Or.inl rfl⟩
          · have : e.1 ∈ es.map (·.2) := by
              by_contra hc
              exact hs1 ((hends.source e.1).1 ⟨List.mem_map_of_mem he, hc⟩)
            obtain ⟨e', he', h'⟩ := List.mem_map.1 this
            exact ⟨(f e', f e), (hnew _ _).2 (Or.inr (Or.inr ⟨e, he, e', he', h', rfl, rfl⟩)),
              Or.inr rfl⟩
        · exact Or.inl ⟨(h.nodes _).2 (Or.inr (Or.inr ⟨y, mem_mid.2 (Or.inr hy), hl, rfl⟩)), hne y hy⟩
  · -- edges
    simp only [hout, hin, hlink]
    rw [hedge]
    constructor
    · rintro (⟨h1, h2, h3⟩ | ⟨e, he, h1, h2, rfl⟩ | ⟨e, he, h1, h2, rfl⟩ |
        ⟨e, he, e', he', h1, rfl, rfl⟩)
      · obtain ⟨P, Q, h4, h5, h6⟩ := (h.edges a b).1 h1
        exact ⟨P, Q, Or.inl ⟨h4, h2⟩, Or.inl ⟨h5, h3⟩, h6⟩
      · obtain ⟨P, Q, h4, h5, h6⟩ := (h.edges _ _).1 h2
        rw [hinx] at h5
        subst h5
        refine ⟨P, _, Or.inl ⟨h4, hpn _ h2⟩, Or.inr ⟨e, he, rfl, rfl⟩, ?_⟩
        rcases spot_fst hends he p x.tail x.head with ⟨_, h7⟩ | ⟨h7, _⟩
        · rw [hat, h7]
          exact h6
        · exact absurd h1 h7
      · obtain ⟨P, Q, h4, h5, h6⟩ := (h.edges _ _).1 h2
        rw [houtx] at h4
        subst h4
        refine ⟨_, Q, Or.inr ⟨e, he, rfl, rfl⟩, Or.inl ⟨h5, hsn _ h2⟩, ?_⟩
        rcases spot_snd hends he p x.tail x.head with ⟨_, h7⟩ | ⟨h7, _⟩
        · rw [hat, h7]
          exact h6
        · exact absurd h1 h7
      · refine ⟨_, _, Or.inr ⟨e', he', rfl, rfl⟩, Or.inr ⟨e, he, rfl, rfl⟩, ?_⟩
        rw [h1]
        exact .refl
    · rintro ⟨P, Q, ⟨h1, h2⟩ | ⟨e', he', rfl, rfl⟩, ⟨h3, h4⟩ | ⟨e, he, rfl, rfl⟩, h5⟩
      · exact Or.inl ⟨(h.edges a b).2 ⟨P, Q, h1, h3, h5⟩, h2, h4⟩
      · rcases spot_fst hends he p x.tail x.head with ⟨h6, h7⟩ | ⟨_, h7⟩
        · rw [hat, h7] at h5
          exact Or.inr (Or.inl ⟨e, he, h6, (h.edges _ _).2 ⟨P, _, h1, (hinx _).2 rfl, h5⟩, rfl⟩)
        · rw [hat, h7] at h5
          rw [hto _ _ h5] at h1
          exact absurd h1 (houtf _ _)
      · rcases spot_snd hends he' p x.tail x.head with ⟨h6, h7⟩ | ⟨_, h7⟩
        · rw [hat, h7] at h5
          exact Or.inr (Or.inr (Or.inl ⟨e', he', h6,
            (h.edges _ _).2 ⟨_, Q, (houtx _).2 rfl, h3, h5⟩, rfl⟩))
        · rw [hat, h7] at h5
          rw [hfrom _ _ h5] at h3
          exact absurd h3 (hinf _ _)
      · refine Or.inr (Or.inr (Or.inr ⟨e, he, e', he', ?_, rfl, rfl⟩))
        rcases spot_snd hends he' p x.tail x.head with ⟨h6, h7⟩ | ⟨_, h7⟩ <;>
          rcases spot_fst hends he p x.tail x.head with ⟨h8, h9⟩ | ⟨_, h9⟩ <;>
          rw [hat, h7, h9] at h5
        · exact absurd h5 hself
        · exact absurd (hto _ _ h5) (hfresh x hxm _).2
        · exact absurd (hfrom _ _ h5) (hfresh x hxm _).1
        · have := hfrom _ _ h5
          injection this with _ h10
          exact h10.symm
  · intro y hy op ho hpr
    rcases (hmemX y).1 hy with hy | hy
    · obtain ⟨e, _, _, h1, _⟩ := mem_items hy
      rw [h1] at ho
      cases ho
    · exact h.labels y (mem_mid.2 (Or.inr hy)) op ho hpr
  · rcases (hedge a b).1 e with h1 | ⟨e, he, _, h2, h3⟩ | ⟨e, he, _, h2, h3⟩ | h1
    · exact Or.inl h1.1
    · exact Or.inr (Or.inl ⟨e, he, h2, h3⟩)
    · exact Or.inr (Or.inr (Or.inl ⟨e, he, h2, h3⟩))
    · exact Or.inr (Or.inr (Or.inr h1))

/-- The first topology. -/
theorem root_ok {es : List (ℕ × ℕ)} {src tgt : ℕ} (hs : Sensible es) (hends : Ends es src tgt) :
    ∃ s', Draw.start.topology ⟨nodeEdges es src tgt, es.map (edgeNode es), (0, 1)⟩ = some s' ∧
      s'.stack = es.map (edgeNode es) ∧
      Inv S s' (items (es.map (edgeNode es)) es 0 (spot es [] .source .sink) []) := by
  have t := two_le_edgeNode es
  set at_ := spot es [] .source .sink with hat
  set K := items (es.map (edgeNode es)) es 0 at_ [] with hK
  have hlink : ∀ P Q, ILink S K P Q ↔ P = Q := by
    intro P Q
    constructor
    · intro hl
      induction hl with
      | refl => rfl
      | tail _ hstep _ =>
        obtain ⟨y, hy, hpy, _⟩ := hstep
        obtain ⟨e, _, _, ho, _⟩ := mem_items hy
        exact absurd hpy (pending_not_pass ho)
    · rintro rfl
      exact .refl
  have hout : ∀ a P, Out S K a P ↔
      (a = 0 ∧ P = .source) ∨ ∃ e ∈ es, a = edgeNode es e ∧ P = at_ e.2 := by
    intro a P
    refine or_congr_right ⟨?_, ?_⟩
    · rintro ⟨y, hy, _, rfl, rfl⟩
      obtain ⟨e, he, h1, _, _, h2⟩ := mem_items hy
      exact ⟨e, he, h1, h2⟩
    · rintro ⟨e, he, rfl, rfl⟩
      obtain ⟨y, hy, h1, h2, _, h3⟩ := exists_items (f := edgeNode es) (at_ := at_) (p := []) he (i := 0)
      exact ⟨y, hy, pending_live h2, h1.symm, h3.symm⟩
  have hin : ∀ a P, In S K a P ↔
      (a = 1 ∧ P = .sink) ∨ ∃ e ∈ es, a = edgeNode es e ∧ P = at_ e.1 := by
    intro a P
    refine or_congr_right ⟨?_, ?_⟩
    · rintro ⟨y, hy, _, rfl, rfl⟩
      obtain ⟨e, he, h1, _, h2, _⟩ := mem_items hy
      exact ⟨e, he, h1, h2⟩
    · rintro ⟨e, he, rfl, rfl⟩
      obtain ⟨y, hy, h1, h2, h3, _⟩ := exists_items (f := edgeNode es) (at_ := at_) (p := []) he (i := 0)
      exact ⟨y, hy, pending_live h2, h1.symm, h3.symm⟩
  have hedge : ∀ a b, (addEdges (⟨[0, 1], []⟩ : Graph) (nodeEdges es src tgt)).Edge a b ↔
      (a, b) ∈ nodeEdges es src tgt := by
    intro a b
    rw [edge_addEdges]
    simp [Graph.Edge]
  obtain ⟨q, hq⟩ := hs.acyclic
  unfold Draw.topology
  simp only [Draw.start, endpoints_nodeEdges hends]
  refine ⟨_, rfl, rfl, ?_, ?_, fun m => ?_, nodup_addEdges (by decide), fun a b => ?_, ?_, rfl, rfl,
    ?_, rfl⟩
  · rw [items_n]
    exact List.Nodup.map_on (fun e he e' he' hee => edgeNode_inj hs.nodup he he' hee) hs.nodup
  · intro y hy
    obtain ⟨e, he, h1, _⟩ := mem_items hy
    have h2 := (le_foldl_max (es.map (edgeNode es)) 0).2 _ (List.mem_map_of_mem he)
    have h3 := t e
    simp only
    omega
  · simp only
    rw [mem_addEdges]
    constructor
    · rintro (hm | ⟨⟨a, b⟩, he, hab⟩)
      · simp only [List.mem_cons, List.not_mem_nil, or_false] at hm
        rcases hm with h | h
        · exact Or.inl h
        · exact Or.inr (Or.inl h)
      · have hnw : ∀ e ∈ es, (edgeNode es e = 0 ∨ edgeNode es e = 1 ∨
            ∃ y ∈ K, Live S y ∧ edgeNode es e = y.n) := by
          intro e he
          obtain ⟨y, hy, h1, h2, _, _⟩ :=
            exists_items (f := edgeNode es) (at_ := at_) (p := []) he (i := 0)
          exact Or.inr (Or.inr ⟨y, hy, pending_live h2, h1.symm⟩)
        replace he := mem_nodeEdges.1 he
        rcases he with ⟨e, he, h1, rfl, rfl⟩ | ⟨e, he, h1, rfl, rfl⟩ |
          ⟨e, he, e', he', h1, rfl, rfl⟩
        · rcases hab with rfl | rfl
          · exact Or.inl rfl
          · exact hnw e he
        · rcases hab with rfl | rfl
          · exact hnw e he
          · exact Or.inr (Or.inl rfl)
        · rcases hab with rfl | rfl
          · exact hnw e' he'
          · exact hnw e he
    · rintro (rfl | rfl | ⟨y, hy, hl, rfl⟩)
      · exact Or.inl (by simp)
      · exact Or.inl (by simp)
      · right
        obtain ⟨e, he, h1, _⟩ := mem_items hy
        rw [h1]
        by_cases hs1 : e.1 = src
        · exact ⟨(0, edgeNode es e), mem_nodeEdges.2 (Or.inl ⟨e, he, hs1, rfl, rfl⟩), Or.inr rfl⟩
        · have : e.1 ∈ es.map (·.2) := by
            by_contra hc
            exact hs1 ((hends.source e.1).1 ⟨List.mem_map_of_mem he, hc⟩)
          obtain ⟨e', he', h'⟩ := List.mem_map.1 this
          exact ⟨(edgeNode es e', edgeNode es e),
            mem_nodeEdges.2 (Or.inr (Or.inr ⟨e, he, e', he', h', rfl, rfl⟩)), Or.inr rfl⟩
  · simp only [hout, hin, hlink]
    rw [hedge, mem_nodeEdges]
    constructor
    · rintro (⟨e, he, h1, rfl, rfl⟩ | ⟨e, he, h1, rfl, rfl⟩ | ⟨e, he, e', he', h1, rfl, rfl⟩)
      · refine ⟨_, _, Or.inl ⟨rfl, rfl⟩, Or.inr ⟨e, he, rfl, rfl⟩, ?_⟩
        rcases spot_fst hends he [] .source .sink with ⟨_, h7⟩ | ⟨h7, _⟩
        · exact h7.symm
        · exact absurd h1 h7
      · refine ⟨_, _, Or.inr ⟨e, he, rfl, rfl⟩, Or.inl ⟨rfl, rfl⟩, ?_⟩
        rcases spot_snd hends he [] .source .sink with ⟨_, h7⟩ | ⟨h7, _⟩
        · exact h7
        · exact absurd h1 h7
      · exact ⟨_, _, Or.inr ⟨e', he', rfl, rfl⟩, Or.inr ⟨e, he, rfl, rfl⟩, by rw [h1]⟩
    · rintro ⟨P, Q, ⟨rfl, rfl⟩ | ⟨e', he', rfl, rfl⟩, ⟨rfl, rfl⟩ | ⟨e, he, rfl, rfl⟩, h5⟩
      · cases h5
      · rcases spot_fst hends he [] .source .sink with ⟨h6, h7⟩ | ⟨_, h7⟩
        · exact Or.inl ⟨e, he, h6, rfl, rfl⟩
        · rw [hat, h7] at h5
          cases h5
      · rcases spot_snd hends he' [] .source .sink with ⟨h6, h7⟩ | ⟨_, h7⟩
        · exact Or.inr (Or.inl ⟨e', he', h6, rfl, rfl⟩)
        · rw [hat, h7] at h5
          cases h5
      · refine Or.inr (Or.inr ⟨e, he, e', he', ?_, rfl, rfl⟩)
        rcases spot_snd hends he' [] .source .sink with ⟨h6, h7⟩ | ⟨_, h7⟩ <;>
          rcases spot_fst hends he [] .source .sink with ⟨h8, h9⟩ | ⟨_, h9⟩ <;>
          rw [hat, h7, h9] at h5 <;> injection h5
  · intro y hy op ho hpr
    obtain ⟨e, _, _, h1, _⟩ := mem_items hy
    rw [h1] at ho
    cases ho
  · let R : ℕ → ℕ := fun m => match es[m - 2]? with | some e => q e.1 | none => 0
    have hR : ∀ e ∈ es, R (edgeNode es e) = q e.1 := by
      intro e he
      have h1 := edgeNode_eq hs.nodup he
      have h2 : es[es.idxOf e]? = some e := List.getElem?_idxOf he
      have h3 : edgeNode es e - 2 = es.idxOf e := by omega
      simp only [R]
      rw [h3, h2]
    set M := (es.map fun e => q e.1).foldl max 0 with hM
    have hlt : ∀ e ∈ es, q e.1 ≤ M := fun e he =>
      (le_foldl_max (es.map fun e => q e.1) 0).2 (q e.1) (List.mem_map.2 ⟨e, he, rfl⟩)
    refine ⟨fun m => if m = 0 then 0 else if m = 1 then M + 2 else R m + 1, fun a b hab => ?_⟩
    replace hab := mem_nodeEdges.1 ((hedge a b).1 hab)
    rcases hab with ⟨e, he, h1, rfl, rfl⟩ | ⟨e, he, h1, rfl, rfl⟩ |
      ⟨e, he, e', he', h1, rfl, rfl⟩
    · have := t e
      simp only [if_true]
      rw [if_neg (by omega), if_neg (by omega)]
      omega
    · have := t e
      have := hlt e he
      simp only [show (1 : ℕ) ≠ 0 by omega, if_true, if_false]
      rw [if_neg (by omega), if_neg (by omega), hR e he]
      omega
    · have := t e
      have := t e'
      have := hq e' he'
      rw [h1] at this
      simp only
      rw [if_neg (by omega), if_neg (by omega), if_neg (by omega), if_neg (by omega), hR e he,
        hR e' he']
      omega

end Verif.Repr
