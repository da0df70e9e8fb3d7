import Verif.Grammar.Locate
import Verif.Grammar.SampleLemmas
import Mathlib.Logic.Relation

/-!
# Architecture grammars (C90 - C94)
-/

namespace Verif.Gram

/-! ## Sampling -/

theorem samplerList_mem {g : Grammar} {up : Bool} {fuel : ℕ} {A : Str} (n : ℕ) :
    ∀ {ds ds' ss}, samplerList g up fuel A n ds = some (ss, ds') →
      ss.length = n ∧ ∀ s ∈ ss, ∃ d d', sampleOne g up fuel A d = some (s, d') := by
  induction n with
  | zero =>
    intro ds ds' ss h
    simp only [samplerList, Option.some.injEq, Prod.mk.injEq] at h
    obtain ⟨rfl, _⟩ := h
    simp
  | succ n ih =>
    intro ds ds' ss h
    simp only [samplerList] at h
    split at h
    · simp at h
    · rename_i s d1 h1
      split at h
      · simp at h
      · rename_i ss' d2 h2
        simp only [Option.some.injEq, Prod.mk.injEq] at h
        obtain ⟨rfl, _⟩ := h
        obtain ⟨h3, h4⟩ := ih h2
        refine ⟨by simp [h3], ?_⟩
        intro t ht
        rcases List.mem_cons.1 ht with rfl | ht
        · exact ⟨_, _, h1⟩
        · exact h4 t ht

/-- **C90**: sampling gives as many texts as asked for, and each is the text of a parse tree of
the grammar whose root is the start symbol (the grammar's own, unless another one is given). -/
theorem C90_sampled (g : Grammar) (fuel n : ℕ) (startSymbol : Option Str) (userPriors : Bool)
    (ds ds' : List ℕ) (ss : List Str)
    (h : sampler g fuel n startSymbol userPriors ds = some (ss, ds')) :
    ss.length = n ∧ ∀ s ∈ ss, IsTree g (startSymbol.getD g.start) s := by
  obtain ⟨h1, h2⟩ := samplerList_mem n h
  refine ⟨h1, fun s hs => ?_⟩
  obtain ⟨d, d', hd⟩ := h2 s hs
  obtain ⟨rhs, kids, ha, hk, ht, _⟩ := sampleOne_ok hd
  exact ⟨rhs, kids, ha.legal, hk.mono fun _ _ => Allowed.legal, ht⟩

/-- **C90**: a sampler that follows the prior never uses a production whose probability is zero. -/
theorem C90_prior (g : Grammar) (p : List (Str × List ℚ)) (hp : g.prior = some p) (fuel n : ℕ)
    (startSymbol : Option Str) (ds ds' : List ℕ) (ss : List Str)
    (h : sampler g fuel n startSymbol true ds = some (ss, ds')) :
    ∀ s ∈ ss, IsTreeOf (g.Possible p) (startSymbol.getD g.start) s := by
  obtain ⟨_, h2⟩ := samplerList_mem n h
  have key : ∀ A rhs, Allowed g true A rhs → g.Possible p A rhs := by
    rintro A rhs ⟨i, h1, h2⟩
    obtain ⟨ps, q, h3, h4, h5, h6⟩ := h2 rfl p hp
    exact ⟨ps, i, q, h3, h1, h5, h6⟩
  intro s hs
  obtain ⟨d, d', hd⟩ := h2 s hs
  obtain ⟨rhs, kids, ha, hk, ht, _⟩ := sampleOne_ok hd
  exact ⟨rhs, kids, key _ _ ha, hk.mono key, ht⟩

/-- **C91** holds only in part: a tree in which two different subtrees never have the same root,
unless one is inside the other, can be sampled.  Missing: all other trees, see
`C91_siblings_fails`. -/
theorem C91_complete_partial (g : Grammar) (A : Str) (rhs : List Sym) (kids : Forest)
    (hA : g.Legal A rhs) (hk : Derives g.Legal rhs kids) (hu : kids.Uniform) :
    ∃ fuel ds, sampler g fuel 1 (some A) false ds = some ([treeText A kids], []) := by
  have key : ∀ A rhs, g.Legal A rhs → Allowed g false A rhs := by
    intro A rhs h
    have hm : (⟨A, rhs⟩ : Production) ∈ g.productions A := by
      unfold Grammar.productions
      rw [List.mem_filter]
      exact ⟨h, by simp⟩
    obtain ⟨i, hi⟩ := List.mem_iff_getElem?.1 hm
    exact ⟨i, hi, by simp⟩
  obtain ⟨ds, c', h1, _⟩ := sample_complete g false (kids.depth + 1) A rhs kids [] (key _ _ hA)
    (hk.mono key) (by omega) hu (by intro A s k h; simp [lookup] at h)
  refine ⟨kids.depth + 1, ds, ?_⟩
  have h2 := h1 []
  rw [List.append_nil] at h2
  simp [sampler, samplerList, sampleOne, h2, treeText]

/-- **C91 fails**: in a sampled tree, equal nonterminals of one production always have the same
subtree.  So none of the other trees is ever sampled. -/
theorem C91_siblings_fails (g : Grammar) (fuel n : ℕ) (startSymbol : Option Str)
    (userPriors : Bool) (ds ds' : List ℕ) (ss : List Str)
    (h : sampler g fuel n startSymbol userPriors ds = some (ss, ds')) :
    ∀ s ∈ ss, ∃ rhs kids, g.Legal (startSymbol.getD g.start) rhs ∧ Derives g.Legal rhs kids ∧
      s = treeText (startSymbol.getD g.start) kids ∧ kids.SiblingsAgree := by
  obtain ⟨_, h2⟩ := samplerList_mem n h
  intro s hs
  obtain ⟨d, d', hd⟩ := h2 s hs
  obtain ⟨rhs, kids, ha, hk, ht, h3⟩ := sampleOne_ok hd
  exact ⟨rhs, kids, ha.legal, hk.mono fun _ _ => Allowed.legal, ht, h3⟩

/-! ## Text of trees -/

theorem strip_of_brackets (s : Str) (h1 : ∃ r, s = '(' :: r) (h2 : ∃ r, s = r ++ [')']) :
    strip s = s ∧ strip (' ' :: s) = s := by
  obtain ⟨r1, e1⟩ := h1
  obtain ⟨r2, e2⟩ := h2
  have a : s.dropWhile Char.isWhitespace = s := by
    rw [e1, List.dropWhile_cons_of_neg (by decide)]
  have b : s.reverse.dropWhile Char.isWhitespace = s.reverse := by
    rw [e2, List.reverse_append, List.reverse_singleton, List.singleton_append,
      List.dropWhile_cons_of_neg (by decide)]
  constructor
  · unfold strip
    rw [a, b, List.reverse_reverse]
  · unfold strip
    rw [List.dropWhile_cons_of_pos (by decide), a, b, List.reverse_reverse]

theorem IsTree.brackets {g : Grammar} {A s : Str} (h : IsTree g A s) :
    (∃ r, s = '(' :: r) ∧ ∃ r, s = r ++ [')'] := by
  obtain ⟨_, kids, _, _, rfl⟩ := h
  exact ⟨⟨_, rfl⟩, ⟨_, rfl⟩⟩

theorem IsTree.strip {g : Grammar} {A s : Str} (h : IsTree g A s) :
    strip s = s ∧ strip (' ' :: s) = s := strip_of_brackets s h.brackets.1 h.brackets.2

/-! ## Mutation -/

theorem mutateLoop_ok {g : Grammar} {fuel : ℕ} {parent pre post node : Str} (n : ℕ) :
    ∀ {child ds c ds'}, mutateLoop g fuel parent pre post node n child ds = some (c, ds') →
      (∃ x, child = some x ∧ n = 0 ∧ c = strip x) ∨
      ∃ sub, IsTree g node sub ∧ c = strip (pre ++ sub ++ post) := by
  induction n with
  | zero =>
    intro child ds c ds' h
    simp only [mutateLoop, Option.map_eq_some_iff, Prod.mk.injEq] at h
    obtain ⟨x, rfl, rfl, _⟩ := h
    exact Or.inl ⟨x, rfl, rfl, rfl⟩
  | succ n ih =>
    intro child ds c ds' h
    simp only [mutateLoop] at h
    split at h
    · simp at h
    · rename_i new ds1 hs
      obtain ⟨rhs, kids, ha, hk, ht, _⟩ := sampleOne_ok hs
      have htree : IsTree g node new := ⟨rhs, kids, ha.legal, hk.mono fun _ _ => Allowed.legal, ht⟩
      split_ifs at h with hne
      · simp only [Option.some.injEq, Prod.mk.injEq] at h
        exact Or.inr ⟨new, htree, h.1.symm⟩
      · rcases ih h with ⟨x, hx, _, hc⟩ | hr
        · obtain rfl := Option.some.inj hx
          exact Or.inr ⟨new, htree, hc⟩
        · exact Or.inr hr

theorem mutate_ok {g : Grammar} (hg : g.Clean) {fuel : ℕ} {root parent : Str}
    (hp : IsTree g root parent) {i : ℕ} {c : Char} {A : Str} (hA : A ∈ g.swappable)
    (hi : (splitSp parent)[i]? = some (c :: A)) {patience : ℕ} {ds ds' : List ℕ} {child : Str}
    (h : mutate g fuel parent i A patience ds = some (child, ds')) :
    IsTree g root child ∧ ∃ pre sub post sub', parent = pre ++ sub ++ post ∧
      child = pre ++ sub' ++ post ∧ IsTree g A sub ∧ IsTree g A sub' ∧ i = pre.count ' ' := by
  obtain ⟨P⟩ := place_of_token hg hp hA hi
  unfold mutate at h
  rw [P.removed] at h
  simp only at h
  rcases mutateLoop_ok patience h with ⟨x, hx, _⟩ | ⟨sub', hs', rfl⟩
  · cases hx
  · have ht := P.swap sub' hs'
    have e : strip ((if i = 0 then [' '] else P.pre) ++ sub' ++ P.post) =
        P.pre ++ sub' ++ P.post := by
      split_ifs with h0
      · obtain ⟨e1, e2, _⟩ := P.root h0
        rw [e1, e2] at ht ⊢
        simp only [List.nil_append, List.append_nil, List.singleton_append] at ht ⊢
        exact ht.strip.2
      · exact ht.strip.1
    rw [e]
    exact ⟨ht, P.pre, P.sub, P.post, sub', P.text, rfl, P.legal, hs', P.index⟩

theorem head_of_drop {w A : Str} (h : w.drop 1 = A) (hA : A ≠ []) : ∃ c, w = c :: A := by
  cases w with
  | nil => exact absurd (by simpa using h.symm) hA
  | cons c w => exact ⟨c, by simpa using h⟩

theorem swappable_ne_nil {g : Grammar} (hg : g.Clean) {A : Str} (h : A ∈ g.swappable) : A ≠ [] := by
  obtain ⟨p, hp, rfl⟩ := swappable_lhs h
  exact (hg.lhs p hp).2.2.2

/-- The indices of the tokens are increasing. -/
theorem indices_pos {tree : Str} {p : Str → Bool} {r i : ℕ} (hr : 1 ≤ r)
    (h : (indicesOf tree p)[r]? = some i) : 1 ≤ i := by
  have hs : (indicesOf tree p).Pairwise (· < ·) :=
    List.Pairwise.filter _ List.pairwise_lt_range
  obtain ⟨hlt, rfl⟩ := List.getElem?_eq_some_iff.1 h
  have := List.pairwise_iff_getElem.1 hs 0 r (by omega) hlt (by omega)
  omega

theorem randSubtree_ok {g : Grammar} (hg : g.Clean) {tree A : Str} {i : ℕ} {ds ds' : List ℕ}
    (h : randSubtree g tree ds = some (A, i, ds')) :
    A ∈ g.swappable ∧ 1 ≤ i ∧ ∃ c, (splitSp tree)[i]? = some (c :: A) := by
  unfold randSubtree at h
  simp only at h
  split at h
  · simp at h
  · rename_i r ds1 hr
    split at h
    · simp at h
    · rename_i j hj
      split at h
      · simp at h
      · rename_i w hw
        simp only [Option.some.injEq, Prod.mk.injEq] at h
        obtain ⟨rfl, rfl, rfl⟩ := h
        obtain ⟨w', hw', hm⟩ := mem_indicesOf.1 (List.mem_of_getElem? hj)
        rw [hw] at hw'
        obtain rfl := Option.some.inj hw'
        have hm : w.drop 1 ∈ g.swappable := by simpa using hm
        have hr1 : 1 ≤ r := by
          cases ds with
          | nil => simp [randint] at hr
          | cons d ds =>
            simp only [randint] at hr
            split_ifs at hr with hd
            simp only [Option.some.injEq, Prod.mk.injEq] at hr
            omega
        obtain ⟨c, hc⟩ := head_of_drop rfl (swappable_ne_nil hg hm)
        exact ⟨hm, indices_pos hr1 hj, c, by rw [hw, ← hc]⟩

/-- **C92**, strategy other than `bananas`: the child is a parse tree with the same root as the
parent; it is the parent with one subtree, below the root, replaced by another one with the same
root; and it is not the parent. -/
theorem C92_simple (g : Grammar) (hg : g.Clean) (fuel : ℕ) (root parent child : Str)
    (hp : IsTree g root parent) (rate : ℚ) (us : List ℚ) (ds : List ℕ)
    (h : paramMutate g fuel parent rate false us ds = some child) :
    IsTree g root child ∧ child ≠ parent ∧ ∃ A pre sub post sub', pre ≠ [] ∧
      parent = pre ++ sub ++ post ∧ child = pre ++ sub' ++ post ∧ IsTree g A sub ∧
      IsTree g A sub' := by
  unfold paramMutate at h
  rw [if_neg (by decide)] at h
  split at h
  · simp at h
  · rename_i child' same hs
    split_ifs at h with hsame
    simp only [Option.some.injEq] at h
    subst h
    unfold simpleMutate at hs
    split at hs
    · simp at hs
    · rename_i node i ds1 hr
      split at hs
      · simp at hs
      · rename_i c2 ds2 hm
        simp only [Option.some.injEq, Prod.mk.injEq] at hs
        obtain ⟨rfl, rfl⟩ := hs
        obtain ⟨hA, hi1, c, hi⟩ := randSubtree_ok hg hr
        obtain ⟨ht, pre, sub, post, sub', e1, e2, h1, h2, e3⟩ := mutate_ok hg hp hA hi hm
        refine ⟨ht, ?_, node, pre, sub, post, sub', by rintro rfl; simp at e3; omega, e1, e2, h1,
          h2⟩
        intro e
        exact hsame (by simp [e])

theorem bananasLoop_ok {g : Grammar} (hg : g.Clean) {fuel : ℕ} {root : Str} {rate : ℚ}
    {prob : Option ℚ} {patience : ℕ} (us : List ℚ) : ∀ {idx p cur ds child},
    IsTree g root cur → bananasLoop g fuel rate prob patience us idx p cur ds = some child →
    IsTree g root child ∧
      Relation.ReflTransGen (fun a b => ∃ A ∈ g.swappable, ReplacesOne g A a b) cur child := by
  induction us with
  | nil =>
    intro idx p cur ds child hc h
    unfold bananasLoop at h
    simp only at h
    split at h
    · obtain rfl := Option.some.inj h
      exact ⟨hc, .refl⟩
    · simp at h
  | cons u us ih =>
    intro idx p cur ds child hc h
    unfold bananasLoop at h
    simp only at h
    split at h
    · obtain rfl := Option.some.inj h
      exact ⟨hc, .refl⟩
    · rename_i i hi
      split_ifs at h with hu
      · split at h
        · simp at h
        · rename_i w hw
          split at h
          · simp at h
          · rename_i c1 ds1 hm
            split at h
            · simp at h
            · rename_i p1 hp1
              obtain ⟨w', hw', hmem⟩ := mem_indicesOf.1 (List.mem_of_getElem? hi)
              rw [hw] at hw'
              obtain rfl := Option.some.inj hw'
              have hmem : w.drop 1 ∈ g.swappable := by simpa using hmem
              obtain ⟨c, hcw⟩ := head_of_drop rfl (swappable_ne_nil hg hmem)
              obtain ⟨ht, pre, sub, post, sub', e1, e2, h1, h2, _⟩ :=
                mutate_ok hg hc hmem (c := c) (by rw [hw, ← hcw]) hm
              obtain ⟨h3, h4⟩ := ih ht h
              exact ⟨h3, .head ⟨_, hmem, pre, post, sub, sub', e1, e2, h1, h2⟩ h4⟩
      · exact ih hc h

/-- **C92**, strategy `bananas`: the child is a parse tree with the same root as the parent, not the
parent, and obtained from it by replacing subtrees, one after the other, by subtrees with the same
root. -/
theorem C92_bananas (g : Grammar) (hg : g.Clean) (fuel : ℕ) (root parent child : Str)
    (hp : IsTree g root parent) (rate : ℚ) (us : List ℚ) (ds : List ℕ)
    (h : paramMutate g fuel parent rate true us ds = some child) :
    IsTree g root child ∧ child ≠ parent ∧
      Relation.ReflTransGen (fun a b => ∃ A ∈ g.swappable, ReplacesOne g A a b) parent child := by
  unfold paramMutate at h
  rw [if_pos rfl] at h
  split at h
  · simp at h
  · rename_i child' same hs
    split_ifs at h with hsame
    simp only [Option.some.injEq] at h
    subst h
    unfold bananasMutate at hs
    split at hs
    · simp at hs
    · split at hs
      · simp at hs
      · rename_i c1 hl
        simp only [Option.some.injEq, Prod.mk.injEq] at hs
        obtain ⟨rfl, rfl⟩ := hs
        obtain ⟨h1, h2⟩ := bananasLoop_ok hg us hp hl
        exact ⟨h1, by simpa using hsame, h2⟩

/-- **C92**: trees are split into subtree and rest without loss.  For the index of a token that
names a nonterminal with several productions, removing the subtree gives the part before it, the
subtree and the part after it; only at the root the part before it is a space. -/
theorem C92_remove (g : Grammar) (hg : g.Clean) (root tree : Str) (hp : IsTree g root tree) (i : ℕ)
    (c : Char) (A : Str) (hA : A ∈ g.swappable) (hi : (splitSp tree)[i]? = some (c :: A)) :
    ∃ pre sub post, removeSubtree tree i = some (pre, sub, post) ∧ IsTree g A sub ∧
      (i ≠ 0 → tree = pre ++ sub ++ post) ∧ (i = 0 → pre = [' '] ∧ tree = sub ∧ post = []) := by
  obtain ⟨P⟩ := place_of_token hg hp hA hi
  refine ⟨_, _, _, P.removed, P.legal, fun h => ?_, fun h => ?_⟩
  · rw [if_neg h]; exact P.text
  · obtain ⟨e1, e2, _⟩ := P.root h
    refine ⟨if_pos h, ?_, e2⟩
    have := P.text
    rw [e1, e2] at this
    simpa using this

/-! ## Crossover -/

theorem fixedHead_ok {g : Grammar} (hg : g.Clean) {tree A : Str} (hA : A ∈ g.swappable) {i : ℕ}
    {ds ds' : List ℕ} (h : randSubtreeFixedHead tree A ds = some (i, ds')) (h0 : i ≠ 0) :
    ∃ c, (splitSp tree)[i]? = some (c :: A) := by
  have key : ∀ r : ℕ, (indicesOf tree (· = A))[r]? = some i →
      ∃ c, (splitSp tree)[i]? = some (c :: A) := by
    intro r hr
    obtain ⟨w, hw, hm⟩ := mem_indicesOf.1 (List.mem_of_getElem? hr)
    obtain ⟨c, hc⟩ := head_of_drop (by simpa using hm) (swappable_ne_nil hg hA)
    exact ⟨c, by rw [hw, hc]⟩
  unfold randSubtreeFixedHead at h
  simp only at h
  split_ifs at h
  · simp only [Option.some.injEq, Prod.mk.injEq] at h
    exact absurd h.1.symm h0
  · split at h
    · simp at h
    · simp only [Option.map_eq_some_iff, Prod.mk.injEq] at h
      obtain ⟨j, hj, rfl, _⟩ := h
      exact key _ hj
  · simp only [Option.map_eq_some_iff, Prod.mk.injEq] at h
    obtain ⟨j, hj, rfl, _⟩ := h
    exact key _ hj

theorem crossoverLoop_some {parent2 node pre sub post : Str} (n : ℕ) : ∀ {ds c1 c2},
    crossoverLoop parent2 node pre sub post n ds = some (some (c1, c2)) →
    ∃ ds i ds' dpre dsub dpost, randSubtreeFixedHead parent2 node ds = some (i, ds') ∧ i ≠ 0 ∧
      removeSubtree parent2 i = some (dpre, dsub, dpost) ∧ c1 = strip (pre ++ dsub ++ post) ∧
      c2 = strip (dpre ++ sub ++ dpost) := by
  induction n with
  | zero => intro ds c1 c2 h; simp [crossoverLoop] at h
  | succ n ih =>
    intro ds c1 c2 h
    simp only [crossoverLoop] at h
    split at h
    · simp at h
    · rename_i i ds1 hi
      split_ifs at h with h0
      · exact ih h
      · split at h
        · simp at h
        · rename_i dpre dsub dpost hr
          simp only [Option.some.injEq, Prod.mk.injEq] at h
          exact ⟨ds, i, ds1, dpre, dsub, dpost, hi, h0, hr, h.1.symm, h.2.symm⟩

/-- **C93**: crossover gives two parse trees with the roots of the two parents.  They are the
parents with two subtrees exchanged, one from each parent, below their roots and both with the same
root. -/
theorem C93_crossover (g : Grammar) (hg : g.Clean) (root1 root2 parent1 parent2 child1 child2 : Str)
    (h1 : IsTree g root1 parent1) (h2 : IsTree g root2 parent2) (ds : List ℕ)
    (h : paramCrossover g parent1 parent2 ds = some (child1, child2)) :
    IsTree g root1 child1 ∧ IsTree g root2 child2 ∧
    ∃ A pre sub post dpre dsub dpost, IsTree g A sub ∧ IsTree g A dsub ∧ pre ≠ [] ∧ dpre ≠ [] ∧
      parent1 = pre ++ sub ++ post ∧ parent2 = dpre ++ dsub ++ dpost ∧
      child1 = pre ++ dsub ++ post ∧ child2 = dpre ++ sub ++ dpost := by
  unfold paramCrossover at h
  split at h
  · simp at h
  · simp at h
  · rename_i c1 c2 hc
    split_ifs at h
    simp only [Option.some.injEq, Prod.mk.injEq] at h
    obtain ⟨rfl, rfl⟩ := h
    unfold crossover at hc
    split at hc
    · simp at hc
    · rename_i node i ds1 hr
      split at hc
      · simp at hc
      · rename_i pre sub post hrem
        obtain ⟨hA, hi1, c, hi⟩ := randSubtree_ok hg hr
        obtain ⟨P⟩ := place_of_token hg h1 hA hi
        rw [P.removed, if_neg (by omega)] at hrem
        simp only [Option.some.injEq, Prod.mk.injEq] at hrem
        obtain ⟨rfl, rfl, rfl⟩ := hrem
        obtain ⟨d1, j, d2, dpre, dsub, dpost, hj, hj0, hrem2, rfl, rfl⟩ := crossoverLoop_some _ hc
        obtain ⟨c', hj'⟩ := fixedHead_ok hg hA hj hj0
        obtain ⟨Q⟩ := place_of_token hg h2 hA hj'
        rw [Q.removed, if_neg hj0] at hrem2
        simp only [Option.some.injEq, Prod.mk.injEq] at hrem2
        obtain ⟨rfl, rfl, rfl⟩ := hrem2
        have t1 := P.swap _ Q.legal
        have t2 := Q.swap _ P.legal
        rw [t1.strip.1, t2.strip.1]
        refine ⟨t1, t2, node, P.pre, P.sub, P.post, Q.pre, Q.sub, Q.post, P.legal, Q.legal,
          fun e => ?_, fun e => ?_, P.text, Q.text, rfl, rfl⟩
        · have := P.index; rw [e] at this; simp at this; omega
        · have := Q.index; rw [e] at this; simp at this; omega

end Verif.Gram
