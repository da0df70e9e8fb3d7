import Verif.Repr.CellLemmas

/-! # What the loop over the text keeps true -/

namespace Verif.Repr

open Verif.Gram (Str Func)
open Verif.Arch (Graph)

/-- An edge of the picture while it is drawn, with the number of its node: `op = none` while its
function has not been read. -/
structure Item where
  n : ℕ
  path : List ℕ
  op : Option Str
  tail : Point
  head : Point

variable (S : Setup)

/-- The item has a node. -/
def Live (x : Item) : Prop := ∀ op, x.op = some op → S.Proper op

/-- The item is a plain connection. -/
def Pass (x : Item) : Prop := ∃ op, x.op = some op ∧ S.Plain op

/-- Plain connections. -/
def ILink (X : List Item) : Point → Point → Prop :=
  Relation.ReflTransGen fun P Q => ∃ x ∈ X, Pass S x ∧ x.tail = P ∧ x.head = Q

/-- Where a node hands on its result. -/
def Out (X : List Item) (a : ℕ) (P : Point) : Prop :=
  (a = 0 ∧ P = .source) ∨ ∃ x ∈ X, Live S x ∧ a = x.n ∧ P = x.head

/-- Where a node takes what it works on. -/
def In (X : List Item) (b : ℕ) (Q : Point) : Prop :=
  (b = 1 ∧ Q = .sink) ∨ ∃ x ∈ X, Live S x ∧ b = x.n ∧ Q = x.tail

/-- The graph shows the picture drawn so far. -/
structure Inv (s : Draw) (X : List Item) : Prop where
  ids : (X.map (·.n)).Nodup
  low : ∀ x ∈ X, 2 ≤ x.n ∧ x.n ≤ s.offset
  nodes : ∀ m, m ∈ s.g.nodes ↔ m = 0 ∨ m = 1 ∨ ∃ x ∈ X, Live S x ∧ m = x.n
  nodup : s.g.nodes.Nodup
  edges : ∀ a b, s.g.Edge a b ↔ ∃ P Q, Out S X a P ∧ In S X b Q ∧ ILink S X P Q
  labels : ∀ x ∈ X, ∀ op, x.op = some op → S.Proper op → s.label x.n = some op
  input : s.label 0 = some "input".toList
  output : s.label 1 = some "output".toList
  order : ∃ r : ℕ → ℕ, ∀ a b, s.g.Edge a b → r a < r b
  ends : s.ends = some (0, 1)

variable {S}

theorem Inv.ne {s : Draw} {A B : List Item} {x : Item} (h : Inv S s (A ++ x :: B)) :
    ∀ y ∈ A ++ B, y.n ≠ x.n := by
  have := h.ids
  rw [List.map_append, List.map_cons] at this
  have h2 := (List.nodup_middle.1 this)
  rw [List.nodup_cons] at h2
  intro y hy e
  apply h2.1
  rw [← List.map_append, ← e]
  exact List.mem_map_of_mem hy

theorem mem_mid {A B : List Item} {x y : Item} : y ∈ A ++ x :: B ↔ y = x ∨ y ∈ A ++ B := by
  simp only [List.mem_append, List.mem_cons]
  tauto

theorem Out.mono {X X' : List Item} (h : ∀ x ∈ X, Live S x → ∃ y ∈ X', Live S y ∧ y.n = x.n ∧
    y.head = x.head) {a P} (ho : Out S X a P) : Out S X' a P := by
  rcases ho with h1 | ⟨x, hx, hl, rfl, rfl⟩
  · exact Or.inl h1
  · obtain ⟨y, hy, hl', h1, h2⟩ := h x hx hl
    exact Or.inr ⟨y, hy, hl', h1.symm, h2.symm⟩

theorem In.mono {X X' : List Item} (h : ∀ x ∈ X, Live S x → ∃ y ∈ X', Live S y ∧ y.n = x.n ∧
    y.tail = x.tail) {a P} (ho : In S X a P) : In S X' a P := by
  rcases ho with h1 | ⟨x, hx, hl, rfl, rfl⟩
  · exact Or.inl h1
  · obtain ⟨y, hy, hl', h1, h2⟩ := h x hx hl
    exact Or.inr ⟨y, hy, hl', h1.symm, h2.symm⟩

theorem ILink.mono {X X' : List Item} (h : ∀ x ∈ X, Pass S x → ∃ y ∈ X', Pass S y ∧
    y.tail = x.tail ∧ y.head = x.head) {P Q} (hl : ILink S X P Q) : ILink S X' P Q := by
  refine Relation.ReflTransGen.mono ?_ _ _ hl
  rintro P Q ⟨x, hx, hp, rfl, rfl⟩
  obtain ⟨y, hy, hp', h1, h2⟩ := h x hx hp
  exact ⟨y, hy, hp', h1, h2⟩

theorem pending_live {x : Item} (h : x.op = none) : Live S x := by
  intro op ho
  rw [h] at ho
  cases ho

theorem pending_not_pass {x : Item} (h : x.op = none) : ¬ Pass S x := by
  rintro ⟨op, ho, _⟩
  rw [h] at ho
  cases ho

/-! ## Reading an operation -/

/-- An operation is read: the item on top of the stack becomes this operation. -/
theorem primitive_ok {s : Draw} {A B : List Item} {x : Item} {st : List ℕ} {sym : Str}
    (h : Inv S s (A ++ x :: B)) (hx : x.op = none) (hst : s.stack = x.n :: st) :
    ∃ s', s.primitive S.zero S.ident sym = some s' ∧ s'.stack = st ∧
      Inv S s' (A ++ { x with op := some sym } :: B) := by
  have hne := h.ne
  have hxl : Live S x := pending_live hx
  have hxp : ¬ Pass S x := pending_not_pass hx
  have hmem : x.n ∈ s.g.nodes := (h.nodes _).2 (Or.inr (Or.inr ⟨x, mem_mid.2 (Or.inl rfl), hxl, rfl⟩))
  have hlow := h.low x (mem_mid.2 (Or.inl rfl))
  have hids : ((A ++ { x with op := some sym } :: B).map (·.n)).Nodup := by
    simpa using h.ids
  have hlow' : ∀ y ∈ A ++ { x with op := some sym } :: B, 2 ≤ y.n ∧ y.n ≤ s.offset := by
    intro y hy
    rcases mem_mid.1 hy with rfl | hy
    · exact hlow
    · exact h.low y (mem_mid.2 (Or.inr hy))
  unfold Draw.primitive
  rw [hst]
  simp only [hmem, if_true]
  -- the nodes and ends when the item has no node any more
  have hdead : ¬ S.Proper sym → (∀ y, (y ∈ A ++ { x with op := some sym } :: B ∧ Live S y) ↔
      (y ∈ A ++ x :: B ∧ Live S y ∧ y.n ≠ x.n)) := by
    intro hp y
    rw [mem_mid, mem_mid]
    constructor
    · rintro ⟨rfl | hy, hl⟩
      · exact absurd (hl sym rfl) hp
      · exact ⟨Or.inr hy, hl, hne y hy⟩
    · rintro ⟨rfl | hy, hl, hn⟩
      · exact absurd rfl hn
      · exact ⟨Or.inr hy, hl⟩
  have hnodes : ¬ S.Proper sym → ∀ m, (m = 0 ∨ m = 1 ∨
      ∃ y ∈ A ++ { x with op := some sym } :: B, Live S y ∧ m = y.n) ↔ (m ∈ s.g.nodes ∧ m ≠ x.n) := by
    intro hp m
    have hd := hdead hp
    rw [h.nodes]
    constructor
    · rintro (rfl | rfl | ⟨y, hy, hl, rfl⟩)
      · exact ⟨Or.inl rfl, by omega⟩
      · exact ⟨Or.inr (Or.inl rfl), by omega⟩
      · obtain ⟨h1, h2, h3⟩ := (hd y).1 ⟨hy, hl⟩
        exact ⟨Or.inr (Or.inr ⟨y, h1, h2, rfl⟩), h3⟩
    · rintro ⟨rfl | rfl | ⟨y, hy, hl, rfl⟩, hn⟩
      · exact Or.inl rfl
      · exact Or.inr (Or.inl rfl)
      · obtain ⟨h1, h2⟩ := (hd y).2 ⟨hy, hl, hn⟩
        exact Or.inr (Or.inr ⟨y, h1, h2, rfl⟩)
  have hout : ¬ S.Proper sym → ∀ a P, Out S (A ++ { x with op := some sym } :: B) a P ↔
      (Out S (A ++ x :: B) a P ∧ a ≠ x.n) := by
    intro hp a P
    have hd := hdead hp
    constructor
    · rintro (⟨rfl, rfl⟩ | ⟨y, hy, hl, rfl, rfl⟩)
      · exact ⟨Or.inl ⟨rfl, rfl⟩, by omega⟩
      · obtain ⟨h1, h2, h3⟩ := (hd y).1 ⟨hy, hl⟩
        exact ⟨Or.inr ⟨y, h1, h2, rfl, rfl⟩, h3⟩
    · rintro ⟨⟨rfl, rfl⟩ | ⟨y, hy, hl, rfl, rfl⟩, hn⟩
      · exact Or.inl ⟨rfl, rfl⟩
      · obtain ⟨h1, h2⟩ := (hd y).2 ⟨hy, hl, hn⟩
        exact Or.inr ⟨y, h1, h2, rfl, rfl⟩
  have hin : ¬ S.Proper sym → ∀ a P, In S (A ++ { x with op := some sym } :: B) a P ↔
      (In S (A ++ x :: B) a P ∧ a ≠ x.n) := by
    intro hp a P
    have hd := hdead hp
    constructor
    · rintro (⟨rfl, rfl⟩ | ⟨y, hy, hl, rfl, rfl⟩)
      · exact ⟨Or.inl ⟨rfl, rfl⟩, by omega⟩
      · obtain ⟨h1, h2, h3⟩ := (hd y).1 ⟨hy, hl⟩
        exact ⟨Or.inr ⟨y, h1, h2, rfl, rfl⟩, h3⟩
    · rintro ⟨⟨rfl, rfl⟩ | ⟨y, hy, hl, rfl, rfl⟩, hn⟩
      · exact Or.inl ⟨rfl, rfl⟩
      · obtain ⟨h1, h2⟩ := (hd y).2 ⟨hy, hl, hn⟩
        exact Or.inr ⟨y, h1, h2, rfl, rfl⟩
  -- the ends of the node of the item
  have hinx : ∀ Q, In S (A ++ x :: B) x.n Q ↔ Q = x.tail := by
    intro Q
    constructor
    · rintro (⟨h1, _⟩ | ⟨y, hy, _, h1, rfl⟩)
      · omega
      · rcases mem_mid.1 hy with rfl | hy
        · rfl
        · exact absurd h1.symm (hne y hy)
    · rintro rfl
      exact Or.inr ⟨x, mem_mid.2 (Or.inl rfl), hxl, rfl, rfl⟩
  have houtx : ∀ Q, Out S (A ++ x :: B) x.n Q ↔ Q = x.head := by
    intro Q
    constructor
    · rintro (⟨h1, _⟩ | ⟨y, hy, _, h1, rfl⟩)
      · omega
      · rcases mem_mid.1 hy with rfl | hy
        · rfl
        · exact absurd h1.symm (hne y hy)
    · rintro rfl
      exact Or.inr ⟨x, mem_mid.2 (Or.inl rfl), hxl, rfl, rfl⟩
  have hlinksame : ¬ S.Plain sym → ∀ P Q, ILink S (A ++ { x with op := some sym } :: B) P Q ↔
      ILink S (A ++ x :: B) P Q := by
    intro hp P Q
    constructor
    · refine ILink.mono fun y hy hpy => ?_
      rcases mem_mid.1 hy with rfl | hy
      · obtain ⟨op, h1, h2⟩ := hpy
        simp only [Option.some.injEq] at h1
        subst h1
        exact absurd h2 hp
      · exact ⟨y, mem_mid.2 (Or.inr hy), hpy, rfl, rfl⟩
    · refine ILink.mono fun y hy hpy => ?_
      rcases mem_mid.1 hy with rfl | hy
      · exact absurd hpy hxp
      · exact ⟨y, mem_mid.2 (Or.inr hy), hpy, rfl, rfl⟩
  have hlabels : ¬ S.Proper sym → ∀ y ∈ A ++ { x with op := some sym } :: B, ∀ op,
      y.op = some op → S.Proper op → s.label y.n = some op := by
    intro hp y hy op ho hpr
    rcases mem_mid.1 hy with rfl | hy
    · simp only [Option.some.injEq] at ho
      subst ho
      exact absurd hpr hp
    · exact h.labels y (mem_mid.2 (Or.inr hy)) op ho hpr
  obtain ⟨r, hr⟩ := h.order
  split_ifs with hz hi
  · -- no connection
    have hp : ¬ S.Proper sym := fun hp => hp.1 hz
    refine ⟨_, rfl, rfl, hids, hlow', fun m => ?_, nodup_remove h.nodup, fun a b => ?_, hlabels hp,
      h.input, h.output, ⟨r, fun a b e => hr a b (edge_remove.1 e).1⟩, h.ends⟩
    · rw [mem_remove]
      exact (hnodes hp m).symm
    · simp only [hout hp, hin hp, hlinksame fun hp => hp.1 hz]
      rw [edge_remove, h.edges]
      constructor
      · rintro ⟨⟨P, Q, h1, h2, h3⟩, h4, h5⟩
        exact ⟨P, Q, ⟨h1, h4⟩, ⟨h2, h5⟩, h3⟩
      · rintro ⟨P, Q, ⟨h1, h4⟩, ⟨h2, h5⟩, h3⟩
        exact ⟨⟨P, Q, h1, h2, h3⟩, h4, h5⟩
  · -- a plain connection
    have hp : ¬ S.Proper sym := fun hp => hp.2 hi
    have hlink : ∀ P Q, ILink S (A ++ { x with op := some sym } :: B) P Q ↔
        (ILink S (A ++ x :: B) P Q ∨
          (ILink S (A ++ x :: B) P x.tail ∧ ILink S (A ++ x :: B) x.head Q)) := by
      have up : ∀ P Q, ILink S (A ++ x :: B) P Q → ILink S (A ++ { x with op := some sym } :: B) P Q := by
        intro P Q
        refine ILink.mono fun y hy hpy => ?_
        rcases mem_mid.1 hy with rfl | hy
        · exact absurd hpy hxp
        · exact ⟨y, mem_mid.2 (Or.inr hy), hpy, rfl, rfl⟩
      intro P Q
      constructor
      · intro hl
        induction hl with
        | refl => exact Or.inl .refl
        | tail _ hstep ih =>
          obtain ⟨y, hy, hpy, rfl, rfl⟩ := hstep
          rcases mem_mid.1 hy with rfl | hy
          · refine Or.inr ⟨?_, .refl⟩
            rcases ih with ih | ih
            · exact ih
            · exact ih.1
          · have hst : ∃ z ∈ A ++ x :: B, Pass S z ∧ z.tail = y.tail ∧ z.head = y.head :=
              ⟨y, mem_mid.2 (Or.inr hy), hpy, rfl, rfl⟩
            rcases ih with ih | ih
            · exact Or.inl (ih.tail hst)
            · exact Or.inr ⟨ih.1, ih.2.tail hst⟩
      · rintro (hl | ⟨h1, h2⟩)
        · exact up _ _ hl
        · refine (up _ _ h1).trans (Relation.ReflTransGen.head ?_ (up _ _ h2))
          exact ⟨_, mem_mid.2 (Or.inl rfl), ⟨sym, rfl, hz, hi⟩, rfl, rfl⟩
    have hedge : ∀ a b, ((addEdges s.g ((s.g.preds x.n).flatMap fun a =>
        (s.g.succs x.n).map fun b => (a, b))).removeNode x.n).Edge a b ↔
        (s.g.Edge a b ∨ (s.g.Edge a x.n ∧ s.g.Edge x.n b)) ∧ a ≠ x.n ∧ b ≠ x.n := by
      intro a b
      rw [edge_remove, edge_addEdges]
      simp only [List.mem_flatMap, List.mem_map, Prod.mk.injEq, mem_preds', mem_succs']
      constructor
      · rintro ⟨h1 | ⟨a', ha, b', hb, rfl, rfl⟩, h2⟩
        · exact ⟨Or.inl h1, h2⟩
        · exact ⟨Or.inr ⟨ha, hb⟩, h2⟩
      · rintro ⟨h1 | ⟨ha, hb⟩, h2⟩
        · exact ⟨Or.inl h1, h2⟩
        · exact ⟨Or.inr ⟨a, ha, b, hb, rfl, rfl⟩, h2⟩
    refine ⟨_, rfl, rfl, hids, hlow', fun m => ?_, nodup_remove (nodup_addEdges h.nodup),
      fun a b => ?_, hlabels hp, h.input, h.output, ⟨r, fun a b e => ?_⟩, h.ends⟩
    · rw [mem_remove, hnodes hp, mem_addEdges]
      refine and_congr_left fun _ => ⟨?_, Or.inl⟩
      rintro (h1 | ⟨e, he, h1⟩)
      · exact h1
      · simp only [List.mem_flatMap, List.mem_map, mem_preds', mem_succs'] at he
        obtain ⟨a, ha, b, hb, rfl⟩ := he
        have wf : s.g.WF := by
          intro u v e
          obtain ⟨P, Q, h1, h2, _⟩ := (h.edges u v).1 e
          rw [h.nodes, h.nodes]
          constructor
          · rcases h1 with ⟨rfl, _⟩ | ⟨y, hy, hl, rfl, _⟩
            · exact Or.inl rfl
            · exact Or.inr (Or.inr ⟨y, hy, hl, rfl⟩)
          · rcases h2 with ⟨rfl, _⟩ | ⟨y, hy, hl, rfl, _⟩
            · exact Or.inr (Or.inl rfl)
            · exact Or.inr (Or.inr ⟨y, hy, hl, rfl⟩)
        rcases h1 with rfl | rfl
        · exact (wf _ _ ha).1
        · exact (wf _ _ hb).2
    · simp only [hout hp, hin hp, hlink]
      rw [hedge, h.edges, h.edges, h.edges]
      constructor
      · rintro ⟨⟨P, Q, h1, h2, h3⟩ | ⟨⟨P, Q, h1, h2, h3⟩, P', Q', h1', h2', h3'⟩, h4, h5⟩
        · exact ⟨P, Q, ⟨h1, h4⟩, ⟨h2, h5⟩, Or.inl h3⟩
        · rw [hinx] at h2
          rw [houtx] at h1'
          subst h2 h1'
          exact ⟨P, Q', ⟨h1, h4⟩, ⟨h2', h5⟩, Or.inr ⟨h3, h3'⟩⟩
      · rintro ⟨P, Q, ⟨h1, h4⟩, ⟨h2, h5⟩, h3 | ⟨h3, h3'⟩⟩
        · exact ⟨Or.inl ⟨P, Q, h1, h2, h3⟩, h4, h5⟩
        · exact ⟨Or.inr ⟨⟨P, _, h1, (hinx _).2 rfl, h3⟩, _, Q, (houtx _).2 rfl, h2, h3'⟩, h4, h5⟩
    · rcases ((hedge a b).1 e).1 with h1 | ⟨h1, h2⟩
      · exact hr a b h1
      · exact (hr _ _ h1).trans (hr _ _ h2)
  · -- an operation with a node
    have hp : S.Proper sym := ⟨hz, hi⟩
    have hpl : ¬ S.Plain sym := fun hp => hi hp.2
    have hlive : Live S { x with op := some sym } := by
      intro op ho
      simp only [Option.some.injEq] at ho
      exact ho ▸ hp
    have h1 : ∀ y ∈ A ++ { x with op := some sym } :: B, Live S y → ∃ z ∈ A ++ x :: B, Live S z ∧
        z.n = y.n ∧ z.tail = y.tail ∧ z.head = y.head := by
      intro y hy hl
      rcases mem_mid.1 hy with rfl | hy
      · exact ⟨x, mem_mid.2 (Or.inl rfl), hxl, rfl, rfl, rfl⟩
      · exact ⟨y, mem_mid.2 (Or.inr hy), hl, rfl, rfl, rfl⟩
    have h2 : ∀ y ∈ A ++ x :: B, Live S y → ∃ z ∈ A ++ { x with op := some sym } :: B, Live S z ∧
        z.n = y.n ∧ z.tail = y.tail ∧ z.head = y.head := by
      intro y hy hl
      rcases mem_mid.1 hy with rfl | hy
      · exact ⟨_, mem_mid.2 (Or.inl rfl), hlive, rfl, rfl, rfl⟩
      · exact ⟨y, mem_mid.2 (Or.inr hy), hl, rfl, rfl, rfl⟩
    refine ⟨_, rfl, rfl, hids, hlow', fun m => ?_, h.nodup, fun a b => ?_, ?_, ?_, ?_,
      ⟨r, hr⟩, h.ends⟩
    · rw [h.nodes]
      constructor
      · rintro (h0 | h0 | ⟨y, hy, hl, rfl⟩)
        · exact Or.inl h0
        · exact Or.inr (Or.inl h0)
        · obtain ⟨z, hz, hl', e, _⟩ := h2 y hy hl
          exact Or.inr (Or.inr ⟨z, hz, hl', e.symm⟩)
      · rintro (h0 | h0 | ⟨y, hy, hl, rfl⟩)
        · exact Or.inl h0
        · exact Or.inr (Or.inl h0)
        · obtain ⟨z, hz, hl', e, _⟩ := h1 y hy hl
          exact Or.inr (Or.inr ⟨z, hz, hl', e.symm⟩)
    · simp only [hlinksame hpl]
      rw [h.edges]
      constructor
      · rintro ⟨P, Q, ho, hi, hl⟩
        refine ⟨P, Q, ho.mono fun y hy hl => ?_, hi.mono fun y hy hl => ?_, hl⟩
        · obtain ⟨z, hz, hl', e1, _, e2⟩ := h2 y hy hl
          exact ⟨z, hz, hl', e1, e2⟩
        · obtain ⟨z, hz, hl', e1, e2, _⟩ := h2 y hy hl
          exact ⟨z, hz, hl', e1, e2⟩
      · rintro ⟨P, Q, ho, hi, hl⟩
        refine ⟨P, Q, ho.mono fun y hy hl => ?_, hi.mono fun y hy hl => ?_, hl⟩
        · obtain ⟨z, hz, hl', e1, _, e2⟩ := h1 y hy hl
          exact ⟨z, hz, hl', e1, e2⟩
        · obtain ⟨z, hz, hl', e1, e2, _⟩ := h1 y hy hl
          exact ⟨z, hz, hl', e1, e2⟩
    · intro y hy op ho hpr
      rcases mem_mid.1 hy with rfl | hy
      · simpa using ho
      · simp only [hne y hy, if_false]
        exact h.labels y (mem_mid.2 (Or.inr hy)) op ho hpr
    · simp only [show (0 : ℕ) ≠ x.n by omega, if_false]
      exact h.input
    · simp only [show (1 : ℕ) ≠ x.n by omega, if_false]
      exact h.output

end Verif.Repr
