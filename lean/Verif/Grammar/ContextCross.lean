import Verif.Grammar.ContextProps

/-!
# Crossover in constrained grammars (C115)
-/

namespace Verif.Gram

/-- The name of the none operation that crossover looks for. -/
abbrev zeroName : Str := "zero".toList

theorem contains_append (w a b : Str) : contains w (a ++ (w ++ b)) = true := by
  induction a with
  | nil =>
    rw [List.nil_append]
    cases h : w ++ b with
    | nil =>
      obtain ⟨rfl, rfl⟩ := List.append_eq_nil_iff.1 h
      rfl
    | cons x l =>
      rw [contains, ← h]
      simp
  | cons x a ih =>
    rw [List.cons_append, contains, ih, Bool.or_true]

theorem refuses_zero {A : Str} {k : Forest} {ps : List Production} (hA : '(' ∉ A ∧ ')' ∉ A)
    (hl : ⟨A, k.heads⟩ ∈ ps) (hk : Derives (fun _ _ => True) k.heads k)
    (h : refuses (notAllowedProds (some zeroName) ps false) (treeText A k) = false) :
    k.heads ≠ [.t zeroName] := by
  intro he
  rw [he] at hk
  cases hk with
  | leaf hk =>
    cases hk
    have e : treeText A (.leaf zeroName .nil) = '(' :: A ++ ' ' :: zeroName ++ [')'] := by
      simp [treeText, Forest.text]
    have c1 : (treeText A (.leaf zeroName .nil)).count '(' = 1 := by
      rw [e]
      simp only [List.cons_append, List.count_cons_self, List.count_append,
        List.count_eq_zero.2 hA.1]
      decide
    have c2 : (treeText A (.leaf zeroName .nil)).count ')' = 1 := by
      rw [e]
      simp only [List.cons_append, List.count_append, List.count_eq_zero.2 hA.2, List.count_cons]
      decide
    have c3 : contains zeroName (treeText A (.leaf zeroName .nil)) = true := by
      have e2 : treeText A (.leaf zeroName .nil) = ('(' :: A ++ [' ']) ++ (zeroName ++ [')']) := by
        rw [e]; simp
      rw [e2]
      exact contains_append _ _ _
    have c4 : (notAllowedProds (some zeroName) ps false).any
        (fun p => p.rhs.head? = some (.t zeroName)) = true := by
      rw [List.any_eq_true]
      exact ⟨_, mem_notAllowedProds.2 ⟨hl, rfl, zeroName, rfl, he⟩, by simp [Forest.heads]⟩
    unfold refuses at h
    rw [c1, c2, c3, c4] at h
    simp at h

/-- What crossover has found when it succeeds. -/
theorem cCrossover_some {g : CGrammar} {c : FunConstraint} {parent1 parent2 : Str} (n : ℕ) :
    ∀ {cur ds child1 child2},
      (∀ node pre sub post na, cur = some (node, pre, sub, post, na) → ∃ i d d',
        randSubtree g.toGrammar parent1 d = some (node, i, d') ∧
        removeSubtree parent1 i = some (pre, sub, post) ∧
        contextNotAllowed g c pre post node = some na) →
      cCrossover g c parent1 parent2 n cur ds = some (child1, child2) →
      ∃ node i d d' pre sub post na j e e' dpre dsub dpost na',
        randSubtree g.toGrammar parent1 d = some (node, i, d') ∧
        removeSubtree parent1 i = some (pre, sub, post) ∧
        contextNotAllowed g c pre post node = some na ∧
        randSubtreeFixedHead parent2 node e = some (j, e') ∧ j ≠ 0 ∧
        removeSubtree parent2 j = some (dpre, dsub, dpost) ∧ sub ≠ dsub ∧
        contextNotAllowed g c dpre dpost node = some na' ∧ refuses na dsub = false ∧
        refuses na' sub = false ∧ child1 = strip (pre ++ dsub ++ post) ∧
        child2 = strip (dpre ++ sub ++ dpost) := by
  induction n with
  | zero => intro cur ds child1 child2 _ h; simp [cCrossover] at h
  | succ n ih =>
    intro cur ds child1 child2 hcur h
    simp only [cCrossover] at h
    split at h
    · simp at h
    rename_i x node pre sub post na1 ds1 hx
    have hfound : ∃ i d d', randSubtree g.toGrammar parent1 d = some (node, i, d') ∧
        removeSubtree parent1 i = some (pre, sub, post) ∧
        contextNotAllowed g c pre post node = some na1 := by
      split at hx
      · rename_i y
        simp only [Option.some.injEq, Prod.mk.injEq] at hx
        exact hcur _ _ _ _ _ (by rw [hx.1])
      · split at hx
        · simp at hx
        rename_i node' i' d' hr
        split at hx
        · simp at hx
        rename_i pre' sub' post' hrem
        simp only [Option.map_eq_some_iff, Prod.mk.injEq] at hx
        obtain ⟨na', hna, ⟨rfl, rfl, rfl, rfl, rfl⟩, _⟩ := hx
        exact ⟨_, _, _, hr, hrem, hna⟩
    have hagain : ∀ node' pre' sub' post' na', (if n % 10 = 0 then none else
        some (node, pre, sub, post, na1)) = some (node', pre', sub', post', na') → ∃ i d d',
        randSubtree g.toGrammar parent1 d = some (node', i, d') ∧
        removeSubtree parent1 i = some (pre', sub', post') ∧
        contextNotAllowed g c pre' post' node' = some na' := by
      intro node' pre' sub' post' na' he
      split_ifs at he
      simp only [Option.some.injEq, Prod.mk.injEq] at he
      obtain ⟨rfl, rfl, rfl, rfl, rfl⟩ := he
      exact hfound
    generalize (if n % 10 = 0 then none else some (node, pre, sub, post, na1)) = again at h hagain
    split at h
    · simp at h
    rename_i j ds2 hj
    split_ifs at h with hj0
    · exact ih hagain h
    split at h
    · simp at h
    rename_i dpre dsub dpost hrem2
    split_ifs at h with hsd
    · exact ih hagain h
    split at h
    · simp at h
    rename_i na2 hna2
    split_ifs at h with href
    · exact ih hagain h
    simp only [Option.some.injEq, Prod.mk.injEq] at h
    simp only [Bool.or_eq_true, not_or, Bool.not_eq_true] at href
    obtain ⟨i, d, d', f1, f2, f3⟩ := hfound
    exact ⟨node, i, d, d', pre, sub, post, na1, j, ds1, ds2, dpre, dsub, dpost, na2, f1, f2, f3, hj,
      hj0, hrem2, hsd, hna2, href.1, href.2, h.1.symm, h.2.symm⟩

/-- The argument `new` takes the place of the argument `old`, and the constraint function, told the
other arguments (up to closing brackets), accepts it. -/
def ExchangedFor (g : CGrammar) (c : FunConstraint) (A : Str) (old new : Forest) (op : Str)
    (before : List Str) (B : Str) (k k' : Forest) (after : List Str) : Prop :=
  B = A ∧ k = old ∧ k' = new ∧ ∃ after', List.Forall₂ MoreClosing after after' ∧
    c.Accepts g.noneOp op before k' after'

/-- **C115**, in part: crossover gives two parse trees with the roots of the parents.  They are the
parents with two different arguments exchanged, one from each parent and both with the same root;
neither is the none operation if the constraint function, told the other arguments in its new place,
says no.  Missing: the none operation must be called `zero` (see `C115_zero_fails`), and what is
missing in `C114_mutate_partial`. -/
theorem C115_crossover_partial (g : CGrammar) (c : FunConstraint) (hg : g.Tidy c)
    (hz : g.noneOp = some "zero".toList) (root1 root2 : Str) (kids1 kids2 : Forest)
    (hl1 : g.Legal root1 kids1.heads) (hd1 : Derives g.Legal kids1.heads kids1)
    (hn1 : NamesApart root1 kids1)
    (hl2 : g.Legal root2 kids2.heads) (hd2 : Derives g.Legal kids2.heads kids2)
    (hn2 : NamesApart root2 kids2) (patience : ℕ) (ds : List ℕ) (child1 child2 : Str)
    (h : cCrossover g c (treeText root1 kids1) (treeText root2 kids2) patience none ds =
      some (child1, child2)) :
    ∃ kids1' kids2', child1 = treeText root1 kids1' ∧ g.Legal root1 kids1'.heads ∧
      Derives g.Legal kids1'.heads kids1' ∧ child2 = treeText root2 kids2' ∧
      g.Legal root2 kids2'.heads ∧ Derives g.Legal kids2'.heads kids2' ∧
      ∃ A k1 k2, (A, k1) ∈ kids1.nodes ∧ (A, k2) ∈ kids2.nodes ∧ k1 ≠ k2 ∧
        ChangesArgument (ExchangedFor g c A k1 k2) kids1 kids1' ∧
        ChangesArgument (ExchangedFor g c A k2 k1) kids2 kids2' := by
  obtain ⟨A, i, d, d', pre, sub, post, na, j, e, e', dpre, dsub, dpost, na', h1, h2, h3, h4, h5, h6,
    h7, h8, h9, h10, rfl, rfl⟩ := cCrossover_some patience (by simp) h
  have hD1 : Derives g.Legal [.nt root1] (.node root1 kids1 .nil) := .node hl1 hd1 .nil
  have hD2 : Derives g.Legal [.nt root2] (.node root2 kids2 .nil) := .node hl2 hd2 .nil
  obtain ⟨hA, hi1, ch, hi⟩ := randSubtree_ok hg.clean h1
  obtain ⟨ch', hj⟩ := fixedHead_ok hg.clean hA h4 h5
  obtain ⟨P, o, b, k1, a, u, v, F, p, r1, l1, dd1, m1, sw1⟩ :=
    arg_of_token hg hl1 hd1 hA hi (by omega)
  obtain ⟨Q, o', b', k2, a', u', v', F', q, r2, l2, dd2, m2, sw2⟩ :=
    arg_of_token hg hl2 hd2 hA hj h5
  rw [r1] at h2
  rw [r2] at h6
  simp only [Option.some.injEq, Prod.mk.injEq] at h2 h6
  obtain ⟨rfl, rfl, rfl⟩ := h2
  obtain ⟨rfl, rfl, rfl⟩ := h6
  obtain ⟨after1, ha1, hna1⟩ := p.notAllowed hg hD1 hn1
  obtain ⟨after2, ha2, hna2⟩ := q.notAllowed hg hD2 hn2
  obtain ⟨b1, hb1, rfl⟩ := (hna1 na).1 h3
  obtain ⟨b2, hb2, rfl⟩ := (hna2 na').1 h8
  have hAp : '(' ∉ A ∧ ')' ∉ A := by
    have := hg.clean.lhs _ l1
    exact ⟨this.2.1, this.2.2.1⟩
  have hprod : ∀ k : Forest, g.Legal A k.heads → (⟨A, k.heads⟩ : Production) ∈ g.productions A := by
    intro k hk
    unfold Grammar.productions
    rw [List.mem_filter]
    exact ⟨hk, by simp⟩
  have hacc : ∀ (k : Forest) (bb : Bool), g.Legal A k.heads → Derives g.Legal k.heads k →
      refuses (notAllowedProds g.noneOp (g.productions A) bb) (treeText A k) = false →
      bb = false → ∀ s, g.noneOp = some s → k.heads ≠ [.t s] := by
    intro k bb hk hdk hr hbb s hs
    rw [hz] at hs hr
    obtain rfl := Option.some.inj hs
    subst hbb
    exact refuses_zero hAp (hprod k hk) (hdk.mono fun _ _ _ => trivial) hr
  obtain ⟨kids1', t1, x1, y1, z1⟩ := sw1 k2 l2 dd2
  obtain ⟨kids2', t2, x2, y2, z2⟩ := sw2 k1 l1 dd1
  refine ⟨kids1', kids2', t1, x1, y1, t2, x2, y2, A, k1, k2, m1, m2, ?_, z1 _ ?_, z2 _ ?_⟩
  · rintro rfl
    exact h7 rfl
  · exact ⟨rfl, rfl, rfl, after1, ha1, b1, hb1, hacc k2 b1 l2 dd2 h9⟩
  · exact ⟨rfl, rfl, rfl, after2, ha2, b2, hb2, hacc k1 b2 l1 dd1 h10⟩

/-! ## A concrete case, and where it fails -/

/-- The grammar with another name of the none operation. -/
def crossDemo (noneName : Str) (c : FunConstraint) : CGrammar where
  start := "T".toList
  prods := [⟨"T".toList, [.t "Seq".toList, .nt "OPS".toList, .nt "OPS".toList]⟩,
    ⟨"OPS".toList, [.t "conv".toList]⟩, ⟨"OPS".toList, [.t noneName]⟩]
  prior := none
  constraints := .fn c
  noneOp := some noneName

/-- At most one of the two operations may be the none operation. -/
def crossFun (noneName : Str) : FunConstraint where
  start op := some (if op = .t "Seq".toList then [none, none] else [])
  ask _ d := some (.bool (d.all fun x => match x with
    | none => true
    | some s => s.filter (· ≠ ')') != "(OPS ".toList ++ noneName))

/-- With `zero` the exchange is refused where it would give two none operations (here with one
attempt, i.e. crossover raises), and done elsewhere. -/
example : cCrossover (crossDemo "zero".toList (crossFun "zero".toList)) (crossFun "zero".toList)
      (treeText "T".toList (ctxKids "zero".toList "conv".toList))
      (treeText "T".toList (ctxKids "conv".toList "zero".toList)) 1 none [1, 1] = none ∧
    cCrossover (crossDemo "zero".toList (crossFun "zero".toList)) (crossFun "zero".toList)
      (treeText "T".toList (ctxKids "conv".toList "conv".toList))
      (treeText "T".toList (ctxKids "conv".toList "zero".toList)) 1 none [1, 1] =
    some (treeText "T".toList (ctxKids "conv".toList "zero".toList),
      treeText "T".toList (ctxKids "conv".toList "conv".toList)) := by
  constructor <;> decide +kernel

/-- The hypotheses of `C115_crossover_partial`. -/
example : (ctxDemo ctxLenient).Tidy ctxLenient ∧ (ctxDemo ctxLenient).noneOp = some "zero".toList ∧
    NamesApart "T".toList (ctxKids "conv".toList "conv".toList) ∧
    NamesApart "T".toList (ctxKids "conv".toList "zero".toList) ∧
    cCrossover (ctxDemo ctxLenient) ctxLenient
      (treeText "T".toList (ctxKids "conv".toList "conv".toList))
      (treeText "T".toList (ctxKids "conv".toList "zero".toList)) 1 none [1, 1] =
    some (treeText "T".toList (ctxKids "conv".toList "zero".toList),
      treeText "T".toList (ctxKids "conv".toList "conv".toList)) := by
  refine ⟨ctx_tidy, rfl, ?_, ?_, by decide +kernel⟩ <;>
    · intro P ks h
      simp only [ctxKids, Forest.nodes, List.mem_cons, Prod.mk.injEq, List.not_mem_nil, or_false,
        List.append_nil, List.nil_append, List.cons_append] at h
      rcases h with ⟨rfl, rfl⟩ | ⟨rfl, rfl⟩ | ⟨rfl, rfl⟩ <;> decide +kernel

/-- **C115 fails** for a none operation that is not called `zero`: the constraint function, told the
other argument, says no, but the argument becomes the none operation. -/
theorem C115_zero_fails :
    cCrossover (crossDemo "none".toList (crossFun "none".toList)) (crossFun "none".toList)
        (treeText "T".toList (ctxKids "none".toList "conv".toList))
        (treeText "T".toList (ctxKids "conv".toList "none".toList)) 1 none [1, 1] =
      some (treeText "T".toList (ctxKids "none".toList "none".toList),
        treeText "T".toList (ctxKids "conv".toList "conv".toList)) ∧
    ∀ after, ¬ (crossFun "none".toList).Accepts (some "none".toList) "Seq".toList
      [treeText "OPS".toList (.leaf "none".toList .nil)] (.leaf "none".toList .nil) after := by
  refine ⟨by decide +kernel, ?_⟩
  rintro after ⟨b, h1, h2⟩
  have e : (crossFun "none".toList).ask (.t "Seq".toList)
      ([treeText "OPS".toList (.leaf "none".toList .nil)].map some ++ none :: after.map some) =
        some (.bool false) := by
    simp only [crossFun, List.map_cons, List.map_nil, List.cons_append, List.all_cons]
    rfl
  rcases h1 with h1 | ⟨l, h1, _⟩
  · have := e.symm.trans h1
    simp only [Option.some.injEq, Answer.bool.injEq] at this
    exact h2 this.symm _ rfl rfl
  · have := e.symm.trans h1
    simp at this

end Verif.Gram
