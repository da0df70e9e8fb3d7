import Verif.Repr.ExpandLemmas

/-! # Reading the functions of an architecture -/

namespace Verif.Repr

open Verif.Gram (Str Func)
open Verif.Arch (Graph)

mutual
/-- The names in a function, from left to right. -/
def word : Func → List Str
  | .op x => [x]
  | .comp t args => t :: words args
/-- The same for a list. -/
def words : List Func → List Str
  | [] => []
  | f :: fs => word f ++ words fs
end

/-- The items are these operations. -/
def Reads (Y : List Item) (L : List Leaf) : Prop :=
  Y.map (fun y => (y.path, y.op, y.tail, y.head)) = L.map fun l => (l.path, some l.op, l.tail, l.head)

theorem Reads.append {Y Y' : List Item} {L L' : List Leaf} (h : Reads Y L) (h' : Reads Y' L') :
    Reads (Y ++ Y') (L ++ L') := by
  unfold Reads at *
  rw [List.map_append, List.map_append, h, h']

theorem Reads.mem {Y : List Item} {L : List Leaf} (h : Reads Y L) {y : Item} (hy : y ∈ Y) :
    ∃ l ∈ L, l.path = y.path ∧ y.op = some l.op ∧ l.tail = y.tail ∧ l.head = y.head := by
  have h1 : (y.path, y.op, y.tail, y.head) ∈ Y.map (fun y => (y.path, y.op, y.tail, y.head)) :=
    List.mem_map.2 ⟨y, hy, rfl⟩
  rw [h] at h1
  obtain ⟨l, hl, e⟩ := List.mem_map.1 h1
  simp only [Prod.mk.injEq] at e
  exact ⟨l, hl, e.1, e.2.1.symm, e.2.2⟩

theorem Reads.mem' {Y : List Item} {L : List Leaf} (h : Reads Y L) {l : Leaf} (hl : l ∈ L) :
    ∃ y ∈ Y, l.path = y.path ∧ y.op = some l.op ∧ l.tail = y.tail ∧ l.head = y.head := by
  have h1 : (l.path, some l.op, l.tail, l.head) ∈
      L.map (fun l => (l.path, some l.op, l.tail, l.head)) := List.mem_map.2 ⟨l, hl, rfl⟩
  rw [← h] at h1
  obtain ⟨y, hy, e⟩ := List.mem_map.1 h1
  simp only [Prod.mk.injEq] at e
  exact ⟨y, hy, e.1.symm, e.2.1, e.2.2.1.symm, e.2.2.2.symm⟩

/-- No point of the items is inside what is found at the path. -/
def Fresh (p : List ℕ) (X : List Item) : Prop :=
  ∀ y ∈ X, ∀ q k, p <+: q → y.tail ≠ .inner q k ∧ y.head ≠ .inner q k

/-- The point is the output, or something that has not been read begins there. -/
def Open (B : List Item) (P : Point) : Prop :=
  P = .sink ∨ ∃ y ∈ B, y.op = none ∧ y.tail = P

theorem items_point {ns : List ℕ} {es : List (ℕ × ℕ)} {at_ : ℕ → Point} {p : List ℕ} {y : Item} :
    ∀ {i : ℕ}, y ∈ items ns es i at_ p → ∃ e ∈ es, y.op = none ∧ y.tail = at_ e.1 ∧
      y.head = at_ e.2 := by
  induction ns generalizing es with
  | nil => intro i h; cases h
  | cons n ns ih =>
    intro i h
    cases es with
    | nil => cases h
    | cons e es =>
      simp only [items, List.mem_cons] at h
      rcases h with rfl | h
      · exact ⟨e, by simp, rfl, rfl, rfl⟩
      · obtain ⟨e', he, h⟩ := ih h
        exact ⟨e', by simp [he], h⟩

theorem point_items {ns : List ℕ} {es : List (ℕ × ℕ)} {at_ : ℕ → Point} {p : List ℕ}
    (hlen : ns.length = es.length) {e : ℕ × ℕ} (he : e ∈ es) :
    ∀ {i : ℕ}, ∃ y ∈ items ns es i at_ p, y.op = none ∧ y.tail = at_ e.1 := by
  induction ns generalizing es with
  | nil => cases es <;> simp at hlen he
  | cons n ns ih =>
    intro i
    cases es with
    | nil => simp at he
    | cons e' es =>
      simp only [items, List.mem_cons]
      rcases List.mem_cons.1 he with rfl | he
      · exact ⟨_, Or.inl rfl, rfl, rfl⟩
      · obtain ⟨y, hy, h⟩ := ih (by simpa using hlen) he (i := i + 1)
        exact ⟨y, Or.inr hy, h⟩

/-- Points of a picture that leads from `u` to `v`. -/
def Within (p : List ℕ) (u v P : Point) : Prop :=
  P = u ∨ P = v ∨ ∃ q k, p <+: q ∧ P = .inner q k

theorem spot_cases (es : List (ℕ × ℕ)) (p : List ℕ) (u v : Point) (x : ℕ) :
    spot es p u v x = u ∨ spot es p u v x = v ∨ spot es p u v x = .inner p x := by
  unfold spot
  split_ifs <;> simp

theorem spot_within (es : List (ℕ × ℕ)) (p : List ℕ) (u v : Point) (x : ℕ) :
    Within p u v (spot es p u v x) := by
  rcases spot_cases es p u v x with h | h | h
  · exact Or.inl h
  · exact Or.inr (Or.inl h)
  · exact Or.inr (Or.inr ⟨p, x, List.prefix_rfl, h⟩)

theorem Within.trans {p q : List ℕ} {u v u' v' P : Point} (hpq : p <+: q) (hu : Within p u v u')
    (hv : Within p u v v') (h : Within q u' v' P) : Within p u v P := by
  rcases h with rfl | rfl | ⟨r, k, h1, rfl⟩
  · exact hu
  · exact hv
  · exact Or.inr (Or.inr ⟨r, k, hpq.trans h1, rfl⟩)

mutual
theorem leaves_within (T : Str → List (ℕ × ℕ)) : ∀ (f : Func) (p : List ℕ) (u v : Point) (l : Leaf),
    l ∈ leaves T f p u v → Within p u v l.tail ∧ Within p u v l.head
  | .op x, p, u, v, l, h => by
    simp only [leaves, List.mem_singleton] at h
    subst h
    exact ⟨Or.inl rfl, Or.inr (Or.inl rfl)⟩
  | .comp t args, p, u, v, l, h => by
    simp only [leaves] at h
    exact leavesAll_within T args (T t) 0 (spot (T t) p u v) p u v (spot_within _ p u v) l h
theorem leavesAll_within (T : Str → List (ℕ × ℕ)) : ∀ (fs : List Func) (es : List (ℕ × ℕ)) (i : ℕ)
    (at_ : ℕ → Point) (p : List ℕ) (u v : Point), (∀ x, Within p u v (at_ x)) → ∀ l : Leaf,
    l ∈ leavesAll T fs es i at_ p → Within p u v l.tail ∧ Within p u v l.head
  | [], es, i, at_, p, u, v, hat, l, h => by simp [leavesAll] at h
  | f :: fs, [], i, at_, p, u, v, hat, l, h => by simp [leavesAll] at h
  | f :: fs, e :: es, i, at_, p, u, v, hat, l, h => by
    simp only [leavesAll, List.mem_append] at h
    rcases h with h | h
    · have := leaves_within T f (p ++ [i]) (at_ e.1) (at_ e.2) l h
      have hp : p <+: p ++ [i] := List.prefix_append p [i]
      exact ⟨Within.trans hp (hat _) (hat _) this.1, Within.trans hp (hat _) (hat _) this.2⟩
    · exact leavesAll_within T fs es (i + 1) at_ p u v hat l h
end

theorem prefix_snoc_inj {p q : List ℕ} {i j : ℕ} (h1 : p ++ [i] <+: q) (h2 : p ++ [j] <+: q) :
    i = j := by
  have h3 := List.prefix_of_prefix_length_le h1 h2 (by simp)
  have h4 := h3.eq_of_length (by simp)
  simpa using h4

theorem not_snoc_prefix (p : List ℕ) (j : ℕ) : ¬ p ++ [j] <+: p := by
  intro h
  have := h.length_le
  simp at this

variable {S : Setup} {cs : List (Str × Option Cell)}

mutual
/-- Reading a function turns the item on top of the stack into the operations of the function. -/
theorem run_func (hno : ∀ t, S.topos.lookup t = none → cs.lookup t = none)
    (hyes : ∀ t es, S.topos.lookup t = some es → Sensible es ∧ ∀ src tgt, Ends es src tgt →
      cs.lookup t = some (some ⟨nodeEdges es src tgt, es.map (edgeNode es), (0, 1)⟩)) :
    ∀ (f : Func), Fits S f → ∀ (s : Draw) (A B : List Item) (x : Item) (st : List ℕ),
      Inv S s (A ++ x :: B) → x.op = none → s.stack = x.n :: st → Open B x.head →
      Fresh x.path (A ++ x :: B) →
      ∃ s' Y, (word f).foldlM (fun s w => Draw.symbol S cs w s) s = some s' ∧ s'.stack = st ∧
        Inv S s' (A ++ Y ++ B) ∧ Reads Y (leaves S.edges f x.path x.tail x.head)
  | .op o, hf, s, A, B, x, st, hI, hx, hst, hop, hfr => by
    simp only [Fits] at hf
    obtain ⟨s', h1, h2, h3⟩ := primitive_ok (sym := o) hI hx hst
    refine ⟨s', [{ x with op := some o }], ?_, h2, by simpa using h3, by simp [Reads, leaves]⟩
    simp only [word, List.foldlM_cons, List.foldlM_nil, Draw.symbol, hno o hf.2, h1]
    rfl
  | .comp t args, hf, s, A, B, x, st, hI, hx, hst, hop, hfr => by
    simp only [Fits] at hf
    obtain ⟨_, ⟨es, hl, hlen⟩, hargs⟩ := hf
    obtain ⟨hs, hc⟩ := hyes t es hl
    obtain ⟨src, tgt, hends⟩ := hs.ends
    have hxm : x ∈ A ++ x :: B := mem_mid.2 (Or.inl rfl)
    have hnb : ∃ b, s.g.Edge x.n b := by
      have ho : Out S (A ++ x :: B) x.n x.head := Or.inr ⟨x, hxm, pending_live hx, rfl, rfl⟩
      rcases hop with h1 | ⟨y, hy, h1, h2⟩
      · exact ⟨1, (hI.edges _ _).2 ⟨_, _, ho, Or.inl ⟨rfl, rfl⟩, by rw [h1]; exact .refl⟩⟩
      · exact ⟨y.n, (hI.edges _ _).2 ⟨_, _, ho, Or.inr ⟨y, by simp [hy], pending_live h1, rfl, rfl⟩,
          by rw [h2]; exact .refl⟩⟩
    obtain ⟨s1, h1, h2, h3⟩ := topology_ok hI hx hst hs hends hnb
      fun y hy q => hfr y hy x.path q List.prefix_rfl
    have hfresh : ∀ j, 0 ≤ j → Fresh (x.path ++ [j]) (A ++ items (es.map fun e => edgeNode es e + s.offset)
        es 0 (spot es x.path x.tail x.head) x.path ++ B) := by
      intro j _ y hy q k hq
      have hpq : x.path <+: q := (List.prefix_append x.path [j]).trans hq
      have hat : ∀ z, spot es x.path x.tail x.head z ≠ .inner q k := by
        intro z
        rcases spot_cases es x.path x.tail x.head z with h | h | h <;> rw [h]
        · exact (hfr x hxm q k hpq).1
        · exact (hfr x hxm q k hpq).2
        · intro e
          injection e with e1 _
          rw [← e1] at hq
          exact not_snoc_prefix _ _ hq
      rcases List.mem_append.1 hy with hy | hy
      · rcases List.mem_append.1 hy with hy | hy
        · exact hfr y (by simp [hy]) q k hpq
        · obtain ⟨e, _, _, h4, h5⟩ := items_point hy
          rw [h4, h5]
          exact ⟨hat _, hat _⟩
      · exact hfr y (by simp [hy]) q k hpq
    have hopen : ∀ pre e post, es = pre ++ e :: post → (∃ e' ∈ post, e'.1 = e.2) ∨
        Open B (spot es x.path x.tail x.head e.2) := by
      intro pre e post hes
      have he : e ∈ es := by rw [hes]; simp
      rcases spot_snd hends he x.path x.tail x.head with ⟨_, h4⟩ | ⟨h4, _⟩
      · right
        rw [h4]
        exact hop
      · left
        have h5 : e.2 ∈ es.map (·.1) := by
          by_contra hcon
          exact h4 ((hends.sink e.2).1 ⟨List.mem_map_of_mem he, hcon⟩)
        obtain ⟨e', he', h6⟩ := List.mem_map.1 h5
        have he'' := he'
        rw [hes] at he''
        rcases List.mem_append.1 he'' with h7 | h7
        · have := hs.forward
          rw [hes, List.pairwise_append] at this
          exact absurd h6.symm (this.2.2 e' h7 e (by simp))
        · rcases List.mem_cons.1 h7 with rfl | h7
          · obtain ⟨r, hr⟩ := hs.acyclic
            have := hr e' he'
            rw [h6] at this
            omega
          · exact ⟨e', h7, h6⟩
    obtain ⟨s2, Y, h4, h5, h6, h7⟩ := run_args hno hyes args hargs es hlen
      (es.map fun e => edgeNode es e + s.offset) (by simp) s1 A B st 0 _ _ h3 h2 hopen hfresh
    refine ⟨s2, Y, ?_, h5, h6, ?_⟩
    · simp only [word, List.foldlM_cons, Draw.symbol, hc src tgt hends, h1]
      exact h4
    · have he : S.edges t = es := by simp [Setup.edges, hl]
      simp only [leaves, he]
      exact h7
/-- The same for the arguments of a topology. -/
theorem run_args (hno : ∀ t, S.topos.lookup t = none → cs.lookup t = none)
    (hyes : ∀ t es, S.topos.lookup t = some es → Sensible es ∧ ∀ src tgt, Ends es src tgt →
      cs.lookup t = some (some ⟨nodeEdges es src tgt, es.map (edgeNode es), (0, 1)⟩)) :
    ∀ (fs : List Func), FitsAll S fs → ∀ (es : List (ℕ × ℕ)), fs.length = es.length →
      ∀ ns : List ℕ, ns.length = es.length → ∀ (s : Draw) (A B : List Item) (st : List ℕ) (i : ℕ)
      (at_ : ℕ → Point) (p : List ℕ),
      Inv S s (A ++ items ns es i at_ p ++ B) → s.stack = ns ++ st →
      (∀ pre e post, es = pre ++ e :: post → (∃ e' ∈ post, e'.1 = e.2) ∨ Open B (at_ e.2)) →
      (∀ j, i ≤ j → Fresh (p ++ [j]) (A ++ items ns es i at_ p ++ B)) →
      ∃ s' Y, (words fs).foldlM (fun s w => Draw.symbol S cs w s) s = some s' ∧ s'.stack = st ∧
        Inv S s' (A ++ Y ++ B) ∧ Reads Y (leavesAll S.edges fs es i at_ p)
  | [], _, es, hlen, ns, hns, s, A, B, st, i, at_, p, hI, hst, _, _ => by
    obtain rfl : es = [] := by simpa using hlen.symm
    obtain rfl : ns = [] := by simpa using hns
    exact ⟨s, [], rfl, hst, hI, by simp [Reads, leavesAll]⟩
  | f :: fs, hf, [], hlen, ns, hns, s, A, B, st, i, at_, p, hI, hst, _, _ => by simp at hlen
  | f :: fs, hf, e :: es, hlen, [], hns, s, A, B, st, i, at_, p, hI, hst, _, _ => by simp at hns
  | f :: fs, hf, e :: es, hlen, n :: ns, hns, s, A, B, st, i, at_, p, hI, hst, hop, hfr => by
    simp only [FitsAll] at hf
    have hlen' : fs.length = es.length := by simpa using hlen
    have hns' : ns.length = es.length := by simpa using hns
    have hX : A ++ items (n :: ns) (e :: es) i at_ p ++ B = A ++ (⟨n, p ++ [i], none, at_ e.1, at_ e.2⟩ : Item) ::
        (items ns es (i + 1) at_ p ++ B) := by simp [items]
    rw [hX] at hI hfr
    have hop1 : Open (items ns es (i + 1) at_ p ++ B) (at_ e.2) := by
      rcases hop [] e es rfl with ⟨e', he', h1⟩ | h1 | ⟨y, hy, h1, h2⟩
      · obtain ⟨y, hy, h2, h3⟩ := point_items (at_ := at_) (p := p) hns' he' (i := i + 1)
        exact Or.inr ⟨y, by simp [hy], h2, by rw [h3, h1]⟩
      · exact Or.inl h1
      · exact Or.inr ⟨y, by simp [hy], h1, h2⟩
    obtain ⟨s1, Y1, h1, h2, h3, h4⟩ := run_func hno hyes f hf.1 s A (items ns es (i + 1) at_ p ++ B)
      ⟨n, p ++ [i], none, at_ e.1, at_ e.2⟩ (ns ++ st) hI rfl hst hop1 (hfr i (Nat.le_refl i))
    have hfr1 : ∀ j, i + 1 ≤ j → Fresh (p ++ [j]) (A ++ Y1 ++ items ns es (i + 1) at_ p ++ B) := by
      intro j hj y hy q k hq
      have hold : ∀ z, z ∈ A ∨ z ∈ items ns es (i + 1) at_ p ∨ z ∈ B → z.tail ≠ .inner q k ∧
          z.head ≠ .inner q k := by
        intro z hz
        refine hfr j (by omega) z ?_ q k hq
        simp only [List.mem_append, List.mem_cons]
        tauto
      have hself := hfr j (by omega) _ (mem_mid.2 (Or.inl rfl)) q k hq
      simp only at hself
      by_cases hyY : y ∈ Y1
      · obtain ⟨l, hl, _, _, h5, h6⟩ := h4.mem hyY
        have hw := leaves_within S.edges f _ _ _ l hl
        have hout : ∀ P, Within (p ++ [i]) (at_ e.1) (at_ e.2) P → P ≠ .inner q k := by
          rintro P (rfl | rfl | ⟨q', k', h7, rfl⟩)
          · exact hself.1
          · exact hself.2
          · intro h8
            injection h8 with h9 _
            rw [h9] at h7
            have := prefix_snoc_inj h7 hq
            omega
        rw [← h5, ← h6]
        exact ⟨hout _ hw.1, hout _ hw.2⟩
      · refine hold y ?_
        simp only [List.mem_append] at hy
        tauto
    have hop2 : ∀ pre e' post, es = pre ++ e' :: post → (∃ e'' ∈ post, e''.1 = e'.2) ∨
        Open B (at_ e'.2) := by
      intro pre e' post h5
      exact hop (e :: pre) e' post (by rw [h5]; rfl)
    obtain ⟨s2, Y2, h5, h6, h7, h8⟩ := run_args hno hyes fs hf.2 es hlen' ns hns' s1 (A ++ Y1) B st
      (i + 1) at_ p (by simpa using h3) h2 hop2 hfr1
    refine ⟨s2, Y1 ++ Y2, ?_, h6, by simpa using h7, ?_⟩
    · simp only [words, List.foldlM_append, h1]
      exact h5
    · simp only [leavesAll]
      exact h4.append h8
end

/-- Reading a composition from the beginning. -/
theorem run_root (hno : ∀ t, S.topos.lookup t = none → cs.lookup t = none)
    (hyes : ∀ t es, S.topos.lookup t = some es → Sensible es ∧ ∀ src tgt, Ends es src tgt →
      cs.lookup t = some (some ⟨nodeEdges es src tgt, es.map (edgeNode es), (0, 1)⟩))
    (t : Str) (args : List Func) (hf : Fits S (.comp t args)) :
    ∃ s' Y, (word (.comp t args)).foldlM (fun s w => Draw.symbol S cs w s) Draw.start = some s' ∧
      s'.stack = [] ∧ Inv S s' Y ∧ Reads Y (leaves S.edges (.comp t args) [] .source .sink) := by
  simp only [Fits] at hf
  obtain ⟨_, ⟨es, hl, hlen⟩, hargs⟩ := hf
  obtain ⟨hs, hc⟩ := hyes t es hl
  obtain ⟨src, tgt, hends⟩ := hs.ends
  obtain ⟨s1, h1, h2, h3⟩ := root_ok (S := S) hs hends
  have hfresh : ∀ j, 0 ≤ j → Fresh ([] ++ [j]) ([] ++ items (es.map (edgeNode es)) es 0
      (spot es [] .source .sink) [] ++ []) := by
    intro j _ y hy q k hq
    have hat : ∀ z, spot es [] .source .sink z ≠ .inner q k := by
      intro z
      rcases spot_cases es [] .source .sink z with h | h | h <;> rw [h]
      · simp
      · simp
      · intro e
        injection e with e1 _
        rw [← e1] at hq
        exact not_snoc_prefix _ _ hq
    rw [List.nil_append, List.append_nil] at hy
    obtain ⟨e, _, _, h4, h5⟩ := items_point hy
    rw [h4, h5]
    exact ⟨hat _, hat _⟩
  have hopen : ∀ pre e post, es = pre ++ e :: post → (∃ e' ∈ post, e'.1 = e.2) ∨
      Open [] (spot es [] .source .sink e.2) := by
    intro pre e post hes
    have he : e ∈ es := by rw [hes]; simp
    rcases spot_snd hends he [] .source .sink with ⟨_, h4⟩ | ⟨h4, _⟩
    · exact Or.inr (Or.inl h4)
    · left
      have h5 : e.2 ∈ es.map (·.1) := by
        by_contra hcon
        exact h4 ((hends.sink e.2).1 ⟨List.mem_map_of_mem he, hcon⟩)
      obtain ⟨e', he', h6⟩ := List.mem_map.1 h5
      have he'' := he'
      rw [hes] at he''
      rcases List.mem_append.1 he'' with h7 | h7
      · have := hs.forward
        rw [hes, List.pairwise_append] at this
        exact absurd h6.symm (this.2.2 e' h7 e (by simp))
      · rcases List.mem_cons.1 h7 with rfl | h7
        · obtain ⟨r, hr⟩ := hs.acyclic
          have := hr e' he'
          rw [h6] at this
          omega
        · exact ⟨e', h7, h6⟩
  obtain ⟨s2, Y, h4, h5, h6, h7⟩ := run_args hno hyes args hargs es hlen
    (es.map (edgeNode es)) (by simp) s1 [] [] [] 0 _ [] (by simpa using h3) (by simpa using h2) hopen
    hfresh
  refine ⟨s2, Y, ?_, h5, by simpa using h6, ?_⟩
  · simp only [word, List.foldlM_cons, Draw.symbol, hc src tgt hends, h1]
    exact h4
  · have he : S.edges t = es := by simp [Setup.edges, hl]
    simp only [leaves, he]
    exact h7

end Verif.Repr
