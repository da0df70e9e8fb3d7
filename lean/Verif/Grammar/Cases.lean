import Verif.Grammar.Props

/-!
# Architecture grammars: cases that fail, checks of grammars and priors, examples (C90 - C94)
-/

namespace Verif.Gram

/-! ## Examples -/

/-- Cells in a row, each with one of two operations. -/
def demoG : Grammar where
  start := "S".toList
  prods := [⟨"S".toList, [.t "cell".toList, .nt "P".toList, .nt "S".toList]⟩,
    ⟨"S".toList, [.t "cell".toList, .nt "P".toList]⟩,
    ⟨"P".toList, [.t "a".toList]⟩, ⟨"P".toList, [.t "b".toList]⟩]
  prior := none

theorem demoG_swappable : demoG.swappable = ["S".toList, "P".toList] := by decide +kernel

theorem demoG_clean : demoG.Clean where
  lhs := by decide +kernel
  rhs := by
    intro p hp s hs
    simp [demoG] at hp
    rcases hp with rfl | rfl | rfl | rfl <;> simp at hs <;> subst hs <;> decide
  apart := by
    intro p hp c A hA
    rw [demoG_swappable] at hA
    simp [demoG] at hp
    rcases hp with rfl | rfl | rfl | rfl <;> simp at hA ⊢ <;> rcases hA with rfl | rfl <;> simp

/-- The text of two cells. -/
def demoTree : Str := "(S cell (P a) (S cell (P b)))".toList

theorem demoTree_tree : IsTree demoG "S".toList demoTree := by
  refine ⟨[.t "cell".toList, .nt "P".toList, .nt "S".toList],
    .leaf "cell".toList (.node "P".toList (.leaf "a".toList .nil)
      (.node "S".toList (.leaf "cell".toList (.node "P".toList (.leaf "b".toList .nil) .nil)) .nil)),
    by unfold Grammar.Legal; decide +kernel, ?_, by decide +kernel⟩
  refine .leaf (.node (rhs := [.t "a".toList]) (by unfold Grammar.Legal; decide +kernel)
    (.leaf .nil) (.node (rhs := [.t "cell".toList, .nt "P".toList])
      (by unfold Grammar.Legal; decide +kernel) (.leaf (.node (rhs := [.t "b".toList])
        (by unfold Grammar.Legal; decide +kernel) (.leaf .nil) .nil)) .nil))

/-- `C90_sampled` at work: three random numbers, two cells. -/
example : sampler demoG 10 1 none false [0, 0, 1] =
    some (["(S cell (P a) (S cell (P a)))".toList], []) ∧
    IsTree demoG "S".toList "(S cell (P a) (S cell (P a)))".toList := by
  have h : sampler demoG 10 1 none false [0, 0, 1] =
    some (["(S cell (P a) (S cell (P a)))".toList], []) := by decide +kernel
  exact ⟨h, (C90_sampled _ _ _ _ _ _ _ _ h).2 _ (by simp)⟩

/-- `C92_simple` at work: the second cell is replaced. -/
example : paramMutate demoG 10 demoTree 1 false [] [2, 1, 0] =
    some "(S cell (P a) (S cell (P a)))".toList ∧
    IsTree demoG "S".toList "(S cell (P a) (S cell (P a)))".toList := by
  have h : paramMutate demoG 10 demoTree 1 false [] [2, 1, 0] =
    some "(S cell (P a) (S cell (P a)))".toList := by decide +kernel
  exact ⟨h, (C92_simple _ demoG_clean _ _ _ _ demoTree_tree _ _ _ h).1⟩

/-- `C92_bananas` at work: the operation of the first cell is replaced. -/
example : paramMutate demoG 10 demoTree 1 true [1, 0, 1, 1] [1] =
    some "(S cell (P b) (S cell (P b)))".toList ∧
    IsTree demoG "S".toList "(S cell (P b) (S cell (P b)))".toList := by
  have h : paramMutate demoG 10 demoTree 1 true [1, 0, 1, 1] [1] =
    some "(S cell (P b) (S cell (P b)))".toList := by decide +kernel
  exact ⟨h, (C92_bananas _ demoG_clean _ _ _ _ demoTree_tree _ _ _ h).1⟩

/-- `C93_crossover` at work: the operation of the first cell against that of the second. -/
example : paramCrossover demoG demoTree demoTree [1, 1] =
    some ("(S cell (P b) (S cell (P b)))".toList, "(S cell (P a) (S cell (P a)))".toList) ∧
    IsTree demoG "S".toList "(S cell (P b) (S cell (P b)))".toList := by
  have h : paramCrossover demoG demoTree demoTree [1, 1] =
    some ("(S cell (P b) (S cell (P b)))".toList, "(S cell (P a) (S cell (P a)))".toList) := by
    decide +kernel
  exact ⟨h, (C93_crossover _ demoG_clean _ _ _ _ _ _ demoTree_tree demoTree_tree _ h).1⟩

/-! ## C91 -/

/-- Two operations in a row. -/
def pairG : Grammar where
  start := "S".toList
  prods := [⟨"S".toList, [.nt "A".toList, .nt "A".toList]⟩, ⟨"A".toList, [.t "a".toList]⟩,
    ⟨"A".toList, [.t "b".toList]⟩]
  prior := none

theorem pairG_A {kids : Forest} {rhs : List Sym} (ho : pairG.Legal "A".toList rhs)
    (hd : Derives pairG.Legal rhs kids) :
    kids = .leaf "a".toList .nil ∨ kids = .leaf "b".toList .nil := by
  simp [Grammar.Legal, pairG] at ho
  rcases ho with rfl | rfl
  all_goals
    cases hd with
    | leaf hd => cases hd; simp

/-- **C91 fails**: `(S (A a) (A b))` is a parse tree of the grammar, but whatever the random
generator returns, it is not sampled. -/
theorem C91_complete_fails : ∃ (g : Grammar) (s : Str), IsTree g g.start s ∧
    ∀ fuel n userPriors ds ss ds', sampler g fuel n none userPriors ds = some (ss, ds') → s ∉ ss := by
  refine ⟨pairG, "(S (A a) (A b))".toList, ?_, ?_⟩
  · refine ⟨[.nt "A".toList, .nt "A".toList], .node "A".toList (.leaf "a".toList .nil)
      (.node "A".toList (.leaf "b".toList .nil) .nil), by unfold Grammar.Legal; decide +kernel, ?_,
      by decide +kernel⟩
    exact .node (rhs := [.t "a".toList]) (by unfold Grammar.Legal; decide +kernel) (.leaf .nil)
      (.node (rhs := [.t "b".toList]) (by unfold Grammar.Legal; decide +kernel) (.leaf .nil) .nil)
  · intro fuel n up ds ss ds' h hs
    obtain ⟨rhs, kids, hl, hd, ht, hsib⟩ := C91_siblings_fails pairG fuel n none up ds ds' ss h _ hs
    have hrhs : rhs = [.nt "A".toList, .nt "A".toList] := by
      simpa [Grammar.Legal, pairG] using hl
    subst hrhs
    cases hd with
    | node ho1 hk1 hr1 =>
      rename_i r1 k1 f1
      cases hr1 with
      | node ho2 hk2 hr2 =>
        rename_i r2 k2 f2
        cases hr2
        obtain ⟨_, he, _⟩ := hsib
        have : k2 = k1 := he k2 (by simp [Forest.items])
        subst this
        rcases pairG_A ho1 hk1 with rfl | rfl
        all_goals exact absurd ht (by decide +kernel)

/-- `C91_complete_partial` at work: a tree whose operations are the same. -/
example : ∃ fuel ds, sampler pairG fuel 1 (some "S".toList) false ds =
    some (["(S (A a) (A a))".toList], []) := by
  obtain ⟨fuel, ds, h⟩ := C91_complete_partial pairG "S".toList [.nt "A".toList, .nt "A".toList]
    (.node "A".toList (.leaf "a".toList .nil) (.node "A".toList (.leaf "a".toList .nil) .nil))
    (by unfold Grammar.Legal; decide +kernel)
    (.node (rhs := [.t "a".toList]) (by unfold Grammar.Legal; decide +kernel) (.leaf .nil)
      (.node (rhs := [.t "a".toList]) (by unfold Grammar.Legal; decide +kernel) (.leaf .nil) .nil))
    (by
      simp [Forest.Uniform, Forest.nodes]
      rintro _ _ _ _ rfl _ rfl
      rfl)
  exact ⟨fuel, ds, h⟩

/-! ## C92 -/

/-- A grammar in which a terminal is one character followed by the name of a nonterminal. -/
def clashG : Grammar where
  start := "S".toList
  prods := [⟨"S".toList, [.t "xA".toList, .nt "A".toList]⟩, ⟨"S".toList, [.t "b".toList]⟩,
    ⟨"A".toList, [.t "a".toList]⟩, ⟨"A".toList, [.t "c".toList]⟩]
  prior := none

theorem not_tree_of_unbalanced {g : Grammar}
    (hg1 : ∀ p ∈ g.prods, ' ' ∉ p.lhs ∧ '(' ∉ p.lhs ∧ ')' ∉ p.lhs ∧ p.lhs ≠ [])
    (hg2 : ∀ p ∈ g.prods, ∀ s, .t s ∈ p.rhs → ' ' ∉ s ∧ '(' ∉ s ∧ ')' ∉ s) {s : Str}
    (h : s.count '(' ≠ s.count ')') (A : Str) : ¬ IsTree g A s := by
  rintro ⟨rhs, kids, hl, hd, rfl⟩
  have hD : Derives g.Legal [.nt A] (.node A kids .nil) := .node hl hd .nil
  have := (hD.plain hg1 hg2 (by simp)).balanced
  apply h
  simpa [Forest.text, treeText] using this

/-- **C92 fails** for grammars with such a terminal: the mutation of a parse tree is no parse tree,
a closing bracket is missing. -/
theorem C92_clash_fails : ∃ (g : Grammar) (parent child : Str), g.init = some g ∧
    IsTree g g.start parent ∧
    (∃ fuel rate us ds, paramMutate g fuel parent rate false us ds = some child) ∧
    ∀ A, ¬ IsTree g A child := by
  refine ⟨clashG, "(S xA (A a))".toList, "(S (A c)".toList, ?_, ?_,
    ⟨10, 1, [], [1, 1], by decide +kernel⟩, ?_⟩
  · unfold Grammar.init
    rw [if_neg (by decide +kernel), if_neg (by decide +kernel)]
    rfl
  · refine ⟨[.t "xA".toList, .nt "A".toList], .leaf "xA".toList (.node "A".toList
      (.leaf "a".toList .nil) .nil), by unfold Grammar.Legal; decide +kernel, ?_, by decide +kernel⟩
    exact .leaf (.node (rhs := [.t "a".toList]) (by unfold Grammar.Legal; decide +kernel) (.leaf .nil)
      .nil)
  · refine not_tree_of_unbalanced (by decide +kernel) ?_ (by decide +kernel)
    intro p hp s hs
    simp [clashG] at hp
    rcases hp with rfl | rfl | rfl | rfl <;> simp at hs <;> subst hs <;> decide

/-- One cell with one of two operations. -/
def oneG : Grammar where
  start := "S".toList
  prods := [⟨"S".toList, [.t "a".toList]⟩, ⟨"S".toList, [.t "b".toList]⟩]
  prior := none

/-- **C92**: a tree whose root is its only node with several productions has no mutation other than
by `bananas`: the choice of the subtree raises. -/
theorem C92_simple_root_fails : IsTree oneG oneG.start "(S a)".toList ∧
    IsTree oneG oneG.start "(S b)".toList ∧
    ∀ fuel rate us ds, paramMutate oneG fuel "(S a)".toList rate false us ds = none := by
  refine ⟨⟨[.t "a".toList], .leaf "a".toList .nil, by unfold Grammar.Legal; decide +kernel,
    .leaf .nil, by decide +kernel⟩, ⟨[.t "b".toList], .leaf "b".toList .nil,
    by unfold Grammar.Legal; decide +kernel, .leaf .nil, by decide +kernel⟩, ?_⟩
  intro fuel rate us ds
  have h1 : (indicesOf "(S a)".toList (· ∈ oneG.swappable)).length = 1 := by decide +kernel
  have h : randSubtree oneG "(S a)".toList ds = none := by
    unfold randSubtree
    simp only [h1]
    cases ds with
    | nil => rfl
    | cons d ds =>
      have : ¬ (1 ≤ d ∧ d < 1) := by omega
      simp only [randint, if_neg this]
  unfold paramMutate simpleMutate
  simp only [h, Bool.false_eq_true, if_false]

/-- **C92**: at the root, `bananas` does not try again when it has sampled the parent once more: a
mutation raises although there is another tree. -/
theorem C92_bananas_root_fails : ∃ us ds,
    paramMutate oneG 10 "(S a)".toList 1 true us (0 :: ds) = none ∧
    paramMutate oneG 10 "(S a)".toList 1 true us (1 :: ds) = some "(S b)".toList ∧
    bananasMutate oneG 10 "(S a)".toList 1 none 50 us (0 :: ds) = some ("(S a)".toList, true) :=
  ⟨[0], [1], by decide +kernel, by decide +kernel, by decide +kernel⟩

/-! ## C93 -/

theorem randint_some {lo hi d : ℕ} {ds : List ℕ} (h : lo ≤ d ∧ d < hi) :
    randint lo hi (d :: ds) = some (d, ds) := by simp [randint, h]

theorem fixedHead_zero {tree A : Str} {ds ds' : List ℕ}
    (h : randSubtreeFixedHead tree A ds = some (0, ds')) :
    ∀ j w, (splitSp tree)[j]? = some w → w.drop 1 = A → j = 0 := by
  have hone : (indicesOf tree (· = A)).length ≤ 1 → (indicesOf tree (· = A))[0]? = some 0 ∨
      indicesOf tree (· = A) = [] → ∀ j w, (splitSp tree)[j]? = some w → w.drop 1 = A → j = 0 := by
    intro hl h0 j w hj hw
    have hm : j ∈ indicesOf tree (· = A) := mem_indicesOf.2 ⟨w, hj, by simpa using hw⟩
    rcases h0 with h0 | h0
    · cases hx : indicesOf tree (· = A) with
      | nil => rw [hx] at hm; simp at hm
      | cons a l =>
        rw [hx] at hl h0 hm
        have : l = [] := List.length_eq_zero_iff.1 (by simpa using hl)
        subst this
        simp at h0 hm
        omega
    · rw [h0] at hm; simp at hm
  unfold randSubtreeFixedHead at h
  simp only at h
  split_ifs at h with h1 h2
  · exact hone (by omega) (Or.inr (List.length_eq_zero_iff.1 h1))
  · split at h
    · simp at h
    · rename_i r ds1 hr
      simp only [Option.map_eq_some_iff, Prod.mk.injEq] at h
      obtain ⟨j, hj, hj0, _⟩ := h
      have hr1 : 1 ≤ r := by
        cases ds with
        | nil => simp [randint] at hr
        | cons d ds =>
          simp only [randint] at hr
          split_ifs at hr with hd
          simp only [Option.some.injEq, Prod.mk.injEq] at hr
          omega
      have := indices_pos hr1 hj
      omega
  · simp only [Option.map_eq_some_iff, Prod.mk.injEq] at h
    obtain ⟨j, hj, rfl, _⟩ := h
    exact hone (by omega) (Or.inl hj)

/-- **C93**: crossover gives up (`(False, False)`, which raises) only if the second parent has no
subtree below its root with the root of the subtree chosen in the first parent. -/
theorem C93_gives_up (g : Grammar) (parent1 parent2 : Str) (patience : ℕ) (hp : 0 < patience)
    (ds : List ℕ) (h : crossover g parent1 parent2 patience ds = some none) :
    ∃ A i ds', randSubtree g parent1 ds = some (A, i, ds') ∧
      ∀ j w, (splitSp parent2)[j]? = some w → w.drop 1 = A → j = 0 := by
  unfold crossover at h
  split at h
  · simp at h
  · rename_i node i ds1 hr
    refine ⟨node, i, ds1, hr, ?_⟩
    split at h
    · simp at h
    · obtain ⟨n, rfl⟩ : ∃ n, patience = n + 1 := ⟨patience - 1, by omega⟩
      simp only [crossoverLoop] at h
      split at h
      · simp at h
      · rename_i j ds2 hj
        split_ifs at h with h0
        · subst h0
          exact fixedHead_zero hj
        · split at h <;> simp at h

/-- **C93 fails** for a subtree that is the whole second parent: there is no crossover of `(S cell
(P a) (S cell (P b)))` and `(S cell (P a))` at `S`, because the index 0 of the root counts as
"no such subtree".  The exchange would give two parse trees. -/
theorem C93_root_fails : ∃ g parent1 parent2 ds,
    crossover g parent1 parent2 50 ds = some none ∧ paramCrossover g parent1 parent2 ds = none ∧
    IsTree g "S".toList parent2 ∧
    ∃ pre sub post, parent1 = pre ++ sub ++ post ∧ IsTree g "S".toList sub ∧
      IsTree g "S".toList (pre ++ parent2 ++ post) ∧
      randSubtree g parent1 ds = some ("S".toList, pre.count ' ', []) := by
  have h1 : IsTree demoG "S".toList "(S cell (P a))".toList := by
    refine ⟨[.t "cell".toList, .nt "P".toList], .leaf "cell".toList (.node "P".toList
      (.leaf "a".toList .nil) .nil), by unfold Grammar.Legal; decide +kernel, ?_, by decide +kernel⟩
    exact .leaf (.node (rhs := [.t "a".toList]) (by unfold Grammar.Legal; decide +kernel)
      (.leaf .nil) .nil)
  obtain ⟨P⟩ := place_of_token (i := 4) (c := '(') (A := "S".toList) demoG_clean demoTree_tree
    (by rw [demoG_swappable]; simp) (by decide +kernel)
  refine ⟨demoG, demoTree, "(S cell (P a))".toList, [2], by decide +kernel, by decide +kernel, h1,
    P.pre, P.sub, P.post, P.text, P.legal, P.swap _ h1, ?_⟩
  rw [← P.index]
  decide +kernel

/-! ## C94 -/

/-- **C94 fails**: the checks of the constructor refuse no grammar. -/
theorem C94_checks_fail (g : Grammar) : g.init = some { g with prior := none } := by
  unfold Grammar.init
  rw [if_neg, if_neg]
  · rw [Bool.not_eq_true, List.any_eq_false]
    intro A hA
    simp only [Grammar.nonterminals, Grammar.lhss, List.mem_dedup, List.mem_map] at hA
    obtain ⟨p, hp, rfl⟩ := hA
    have : p ∈ g.productions p.lhs := by
      unfold Grammar.productions
      rw [List.mem_filter]
      exact ⟨hp, by simp⟩
    simp only [beq_iff_eq]
    intro h
    rw [List.length_eq_zero_iff.1 h] at this
    simp at this
  · rw [Nat.not_lt, Nat.le_zero, List.length_eq_zero_iff, List.filter_eq_nil_iff]
    intro s hs
    unfold Grammar.terminals at hs
    have := (List.mem_filter.1 hs).2
    simpa using this

/-- A grammar with a nonterminal `B` that has no production. -/
def danglingG : Grammar where
  start := "S".toList
  prods := [⟨"S".toList, [.t "a".toList, .nt "B".toList]⟩]
  prior := none

/-- **C94**: a grammar with a nonterminal without productions is accepted, and every attempt to
sample from it raises. -/
theorem C94_dangling_fails : danglingG.init = some danglingG ∧
    ∀ fuel n userPriors ds, sampler danglingG fuel (n + 1) none userPriors ds = none := by
  refine ⟨C94_checks_fail _, ?_⟩
  intro fuel n up ds
  cases h : sampler danglingG fuel (n + 1) none up ds with
  | none => rfl
  | some r =>
    obtain ⟨ss, ds'⟩ := r
    exfalso
    obtain ⟨hl, hs⟩ := C90_sampled _ _ _ _ _ _ _ _ h
    cases ss with
    | nil => simp at hl
    | cons s ss =>
      obtain ⟨rhs, kids, ho, hd, _⟩ := hs s (by simp)
      have : rhs = [.t "a".toList, .nt "B".toList] := by simpa [Grammar.Legal, danglingG] using ho
      subst this
      cases hd with
      | leaf hd =>
        cases hd with
        | node ho _ _ => simp [Grammar.Legal, danglingG] at ho

/-- **C94**: a prior is accepted exactly if every nonterminal has one probability for each of its
productions and they sum to one up to a relative error of `1e-9`. -/
theorem C94_prior_iff (g g' : Grammar) (v : List (Str × List ℚ)) :
    setPrior g (some v) = some g' ↔ g' = { g with prior := some v } ∧
      ∀ p ∈ g.prods, ∃ ps, lookup p.lhs v = some ps ∧ ps.length = (g.productions p.lhs).length ∧
        |ps.sum - 1| ≤ 1 / 1000000000 * max |ps.sum| 1 := by
  have key : g.nonterminals.all (checkPrior g v) = true ↔ ∀ p ∈ g.prods, ∃ ps,
      lookup p.lhs v = some ps ∧ ps.length = (g.productions p.lhs).length ∧
        |ps.sum - 1| ≤ 1 / 1000000000 * max |ps.sum| 1 := by
    rw [List.all_eq_true]
    constructor
    · intro h p hp
      have := h p.lhs (by simp [Grammar.nonterminals, Grammar.lhss]; exact ⟨p, hp, rfl⟩)
      unfold checkPrior at this
      split at this
      · simp at this
      · rename_i ps hps
        rw [Bool.and_eq_true, beq_iff_eq] at this
        exact ⟨ps, hps, this.1, by simpa [isCloseOne] using this.2⟩
    · intro h A hA
      simp only [Grammar.nonterminals, Grammar.lhss, List.mem_dedup, List.mem_map] at hA
      obtain ⟨p, hp, rfl⟩ := hA
      obtain ⟨ps, h1, h2, h3⟩ := h p hp
      unfold checkPrior
      rw [h1]
      simp only [Bool.and_eq_true, beq_iff_eq]
      exact ⟨h2, by simpa [isCloseOne] using h3⟩
  unfold setPrior
  simp only
  split_ifs with h
  · rw [Option.some.injEq, eq_comm]
    exact ⟨fun e => ⟨e, key.1 h⟩, fun e => e.1⟩
  · constructor
    · intro e; simp at e
    · rintro ⟨_, e⟩; exact absurd (key.2 e) h

/-- **C94 fails** for negative numbers: a prior with the "probabilities" 2 and -1 is accepted, and
every attempt to sample with it raises. -/
theorem C94_negative_fails : ∃ (g : Grammar) (v : List (Str × List ℚ)) (g' : Grammar),
    setPrior g (some v) = some g' ∧ lookup g.start v = some [2, -1] ∧
    ∀ fuel n ds, sampler g' fuel (n + 1) none true ds = none := by
  refine ⟨oneG, [("S".toList, [2, -1])], { oneG with prior := some [("S".toList, [2, -1])] }, ?_,
    by decide +kernel, ?_⟩
  · rw [C94_prior_iff]
    refine ⟨rfl, ?_⟩
    intro p hp
    have : p.lhs = "S".toList := by
      simp [oneG] at hp
      rcases hp with rfl | rfl <;> rfl
    rw [this]
    exact ⟨[2, -1], by decide +kernel, by decide +kernel, by norm_num⟩
  · intro fuel n ds
    have h : ∀ c, samplerRec { oneG with prior := some [("S".toList, [2, -1])] } true fuel "S".toList c
        ds = none := by
      intro c
      cases fuel with
      | zero => rfl
      | succ fuel =>
        cases ds with
        | nil => rfl
        | cons d ds =>
          simp only [samplerRec]
          have h1 : (Grammar.productions { oneG with prior := some [("S".toList, [2, -1])] }
            "S".toList).length = 2 := by decide +kernel
          rw [h1]
          have h2 : probsFor { oneG with prior := some [("S".toList, [2, -1])] } true "S".toList =
            some (some [2, -1]) := by decide +kernel
          rw [h2]
          simp only [choice]
          rfl
    have h4 : sampleOne { oneG with prior := some [("S".toList, [2, -1])] } true fuel "S".toList ds =
        none := by
      unfold sampleOne
      rw [h]
    change samplerList { oneG with prior := some [("S".toList, [2, -1])] } true fuel "S".toList
      (n + 1) ds = none
    unfold samplerList
    rw [h4]

/-- A prior that is accepted, and a sample that follows it. -/
example : ∃ g', setPrior oneG (some [("S".toList, [0, 1])]) = some g' ∧
    sampler g' 1 1 none true [1] = some (["(S b)".toList], []) ∧
    sampler g' 1 1 none true [0] = none := by
  refine ⟨{ oneG with prior := some [("S".toList, [0, 1])] }, ?_, by decide +kernel,
    by decide +kernel⟩
  rw [C94_prior_iff]
  refine ⟨rfl, ?_⟩
  intro p hp
  have : p.lhs = "S".toList := by
    simp [oneG] at hp
    rcases hp with rfl | rfl <;> rfl
  rw [this]
  exact ⟨[0, 1], by decide +kernel, by decide +kernel, by norm_num⟩

end Verif.Gram
