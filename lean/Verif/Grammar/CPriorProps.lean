import Verif.Grammar.CPriorText
import Verif.Grammar.ConstrainedProps
import Mathlib.Tactic.Linarith
import Mathlib.Tactic.FieldSimp

/-!
# The prior of an architecture of a constrained grammar (C139)
-/

namespace Verif.Gram

/-- The factors are the probabilities of the choices. -/
theorem Setting.factors {g : CGrammar} {c : FunConstraint} {v : List (Str × List ℚ)}
    {prob : Str → List Sym → ℚ} (S : Setting g c v prob) {A : Str} {kids : Forest}
    (hA : g.Legal A kids.heads) (hk : Derives g.Legal kids.heads kids)
    (hroot : ¬ g.NoneAble A) (he : EveryArgument (c.Permits g.noneOp) A kids) :
    cPriorFactors g (treeText A kids) = some (treeChoices g c prob A kids) := by
  have hg := S.readable
  rw [everyArgument_iff] at he
  obtain ⟨⟨op, hop, hperm⟩, hev⟩ := he
  have hne : kids.heads ≠ [] := by
    intro h; rw [h] at hop; simp at hop
  obtain ⟨hs, ho⟩ := hg.ordinary hA
  obtain ⟨k, prev, hkl, hp, hgo⟩ := S.text hk A [] [] op (by simpa using hA) (by simpa using hop)
    rfl (by simp) (by simpa using hperm) hev A.getLast? (getLast_ordinary ho)
  have hsym : A ∈ g.symbols := mem_symbols.2 (Or.inl ⟨_, hA, rfl⟩)
  have hterm : A ∉ g.terminals := fun h => (mem_terminals.1 h).2 _ hA rfl
  have e : treeText A kids = '(' :: (A ++ (kids.text ++ [')'])) := by simp [treeText]
  have hm : cLongestMatch g.toGrammar (A ++ (kids.text ++ [')'])) = some A := by
    obtain ⟨c, r, e, hc⟩ := kids.text_next []
    rw [e]
    exact hg.cread hsym hs hc
  obtain ⟨m, hm2⟩ : ∃ m, (treeText A kids).length + 1 = ((m + 1 + 1) + k + 1) + 1 := by
    have : 1 ≤ A.length := List.length_pos_iff.2 hs
    refine ⟨A.length + kids.text.length + 3 - (k + 4), ?_⟩
    rw [e]
    simp
    omega
  unfold cPriorFactors
  rw [hm2, e, cPriorGo_open _ _ _ _ _ _ _ _ (by simp) (Or.inl rfl),
    cPriorGo_nonterminal _ _ _ hs ho hm hterm [] _ (Or.inl ⟨rfl, rfl⟩)]
  have h1 := hgo (m + 1 + 1) [] [] [] (fun _ => none) (by rw [slot_nil]) (fun _ _ => rfl)
  rw [cand_nil] at h1
  simp only [List.length_nil, List.nil_append, List.map_nil] at h1
  rw [h1]
  obtain ⟨ps, hps⟩ := cand_full hg hA
  rw [hps, cPriorGo_close (m + 1) false hp _ _ _ _ (S.factor_plain hA hne hroot [] _)]
  simp only [cPriorGo, List.isEmpty_nil, if_true, Option.some.injEq]
  unfold treeChoices
  cases hh : kids.heads with
  | nil => exact absurd hh hne
  | cons y r =>
    rw [hh] at hop
    simp only [List.head?_cons, Option.some.injEq] at hop
    subst hop
    rfl

/-- **C139** holds only in part: `compute_prior(log=False)` of a parse tree that the constraint
permits is the product of the probabilities with which the sampler makes its choices.  Missing:
constraint objects (`C139_object_fails`), roots that can be the none operation
(`C139_root_fails`), trees that the constraint excludes (`C139_excluded_fails`), functions that look
at the text of the arguments (`C139_text_fails`), and operations some of whose arguments can be the
none operation and some not (`C139_mixed_fails`). -/
theorem C139_product_partial (g : CGrammar) (hg : g.Readable) (hnd : g.prods.Nodup)
    (v : List (Str × List ℚ)) (hv : g.prior = some v) (prob : Str → List Sym → ℚ)
    (hprob : g.PriorLists v prob) (hrem : g.Remaining prob) (c : FunConstraint)
    (hc : g.constraints = .fn c) (hp : c.Plain g) (A : Str) (kids : Forest)
    (hA : g.Legal A kids.heads) (hk : Derives g.Legal kids.heads kids)
    (hroot : ¬ g.NoneAble A) (he : EveryArgument (c.Permits g.noneOp) A kids) :
    cComputePrior g (treeText A kids) = some (constrainedProb g c prob A kids) := by
  unfold cComputePrior constrainedProb
  rw [Setting.factors ⟨hg, hnd, hv, hprob, hrem, hc, hp⟩ hA hk hroot he]
  rfl

/-- The logarithms of a list of positive numbers, with the small number added that keeps `np.log`
away from zero. -/
theorem log_sum_bounds (l : List ℚ) (h : ∀ q ∈ l, 0 < q) {ε : ℝ} (hε : 0 ≤ ε) :
    (0 : ℝ) < (l.prod : ℚ) ∧
    Real.log (l.prod : ℚ) ≤ (l.map fun q : ℚ => Real.log ((q : ℝ) + ε)).sum ∧
    (l.map fun q : ℚ => Real.log ((q : ℝ) + ε)).sum ≤
      Real.log (l.prod : ℚ) + (l.map fun q : ℚ => ε / (q : ℝ)).sum := by
  induction l with
  | nil => simp
  | cons q l ih =>
    obtain ⟨h0, h1, h2⟩ := ih fun x hx => h x (by simp [hx])
    have hq : (0 : ℝ) < q := by exact_mod_cast h q (by simp)
    have hprod : ((q :: l).prod : ℚ) = q * l.prod := List.prod_cons
    have hmul : Real.log ((q :: l).prod : ℚ) = Real.log q + Real.log (l.prod : ℚ) := by
      rw [hprod, Rat.cast_mul, Real.log_mul hq.ne' h0.ne']
    have ha : Real.log q ≤ Real.log ((q : ℝ) + ε) := Real.log_le_log hq (by linarith)
    have hb : Real.log ((q : ℝ) + ε) ≤ Real.log q + ε / q := by
      have e : (q : ℝ) + ε = q * (1 + ε / q) := by field_simp
      have h3 : 0 ≤ ε / (q : ℝ) := div_nonneg hε hq.le
      rw [e, Real.log_mul hq.ne' (by linarith)]
      have := Real.log_le_sub_one_of_pos (show 0 < 1 + ε / (q : ℝ) by linarith)
      linarith
    refine ⟨?_, ?_, ?_⟩
    · rw [hprod, Rat.cast_mul]
      exact mul_pos hq h0
    · rw [hmul, List.map_cons, List.sum_cons]
      linarith
    · rw [hmul, List.map_cons, List.sum_cons, List.map_cons, List.sum_cons]
      linarith

/-- **C139**, logarithms, in the same cases: `compute_prior(log=True)` of a tree with a positive
probability is the logarithm of this probability, apart from an error of at most 10⁻¹² divided by
the probability of each choice; it is never too small. -/
theorem C139_log_partial (g : CGrammar) (hg : g.Readable) (hnd : g.prods.Nodup)
    (v : List (Str × List ℚ)) (hv : g.prior = some v) (prob : Str → List Sym → ℚ)
    (hprob : g.PriorLists v prob) (hrem : g.Remaining prob) (c : FunConstraint)
    (hc : g.constraints = .fn c) (hp : c.Plain g) (A : Str) (kids : Forest)
    (hA : g.Legal A kids.heads) (hk : Derives g.Legal kids.heads kids)
    (hroot : ¬ g.NoneAble A) (he : EveryArgument (c.Permits g.noneOp) A kids)
    (hpos : ∀ q ∈ treeChoices g c prob A kids, 0 < q) :
    ∃ r : ℝ, cComputeLogPrior g (treeText A kids) = some r ∧
      Real.log (constrainedProb g c prob A kids) ≤ r ∧
      r ≤ Real.log (constrainedProb g c prob A kids) +
        ((treeChoices g c prob A kids).map fun q : ℚ => (1 / 1000000000000) / (q : ℝ)).sum := by
  unfold cComputeLogPrior constrainedProb
  rw [Setting.factors ⟨hg, hnd, hv, hprob, hrem, hc, hp⟩ hA hk hroot he]
  obtain ⟨_, h1, h2⟩ := log_sum_bounds _ hpos (ε := 1 / 1000000000000) (by norm_num)
  exact ⟨_, rfl, h1, h2⟩

/-- **C139**, the sampler: for an argument `B` of the operation `op`, after arguments with the texts
`before`, the sampler leaves out exactly the excluded productions and chooses between the others
with the probabilities of the specification. -/
theorem C139_sampler (g : CGrammar) (hnd : g.prods.Nodup) (v : List (Str × List ℚ))
    (hv : g.prior = some v) (prob : Str → List Sym → ℚ) (hprob : g.PriorLists v prob)
    (hrem : g.Remaining prob) (c : FunConstraint) (op : Sym) (before : List Str)
    (d : List (Option Str)) (hd : c.start op = some d) (b : Bool)
    (hsay : c.answer op before = some b) (B : Str) (hB : B ∈ g.nonterminals) :
    funNotAllowed g c op (before.map some ++ d.drop before.length, before.length) B =
      some (g.excluded c op before B) ∧
    constrainedProbs g.toGrammar true B (g.excluded c op before B) =
      some (some (((g.productions B).filter (· ∉ g.excluded c op before B)).map fun p =>
        condProb g.toGrammar prob (g.excluded c op before B) B p.rhs)) := by
  have hex : g.excluded c op before B = notAllowedProds g.noneOp (g.productions B) b := by
    rw [notAllowedProds_eq]
    unfold CGrammar.excluded
    rw [hsay]
    cases b <;> simp
  constructor
  · unfold FunConstraint.answer at hsay
    rw [hd] at hsay
    unfold funNotAllowed
    simp only at hsay ⊢
    cases hq : c.ask op (before.map some ++ d.drop before.length) with
    | none => rw [hq] at hsay; simp at hsay
    | some a =>
      rw [hq] at hsay
      cases a with
      | list l =>
        simp only at hsay ⊢
        rw [hsay, hex]
        rfl
      | bool b' =>
        simp only [Option.some.injEq] at hsay ⊢
        rw [hsay, hex]
  · have hlist : lookup B v = some ((g.productions B).map fun q => prob B q.rhs) := by
      unfold Grammar.nonterminals Grammar.lhss at hB
      rw [List.mem_dedup, List.mem_map] at hB
      obtain ⟨p, hp, rfl⟩ := hB
      exact hprob p hp
    have hndB : (g.productions B).Nodup := hnd.filter _
    rw [hex]
    unfold constrainedProbs
    simp only [if_true, hv, hlist]
    by_cases hnil : notAllowedProds g.noneOp (g.productions B) b = []
    · rw [if_pos hnil, hnil]
      have e : (g.productions B).filter (fun p => p ∉ ([] : List Production)) = g.productions B := by
        rw [List.filter_eq_self]; simp
      rw [e]
      simp [condProb]
    · have hall : (notAllowedProds g.noneOp (g.productions B) b).all
          (fun x => decide (x ∈ g.productions B)) = true := by
        rw [List.all_eq_true]
        intro p hp
        exact decide_eq_true (mem_notAllowedProds.1 hp).1
      rw [if_neg hnil, if_pos hall]
      have hkept := kept_eq (g.productions B) hndB (fun p =>
        !b && (p.rhs.length == 1) &&
          (match p.rhs with
          | .t s :: _ => some s == g.noneOp
          | _ => false)) (fun q => prob B q.rhs)
      change List.filterMap _ (List.filter (fun x => decide (x ∉
        List.map _ (notAllowedProds g.noneOp (g.productions B) b))) _) =
        List.map _ (List.filter (fun x => decide (x ∉ notAllowedProds g.noneOp (g.productions B) b)) _)
        at hkept
      rw [hkept]
      obtain ⟨q, hq⟩ := List.exists_mem_of_ne_nil _ hnil
      obtain ⟨hq1, hq2, s, hs, hq3⟩ := mem_notAllowedProds.1 hq
      obtain ⟨hq4, hq5⟩ := mem_productions.1 hq1
      have hlq : g.Legal B [.t s] := by
        unfold Grammar.Legal
        rw [← hq5, ← hq3]
        exact hq4
      have e2 : (g.productions B).filter
          (fun p => p ∉ notAllowedProds g.noneOp (g.productions B) b) =
          (g.productions B).filter (·.rhs ≠ [.t s]) := by
        apply List.filter_congr
        intro p hp
        rw [Bool.eq_iff_iff, decide_eq_true_eq, decide_eq_true_eq, not_iff_not, mem_notAllowedProds]
        constructor
        · rintro ⟨_, _, s', hs', h⟩
          rw [hs] at hs'
          obtain rfl := Option.some.inj hs'
          exact h
        · intro h
          exact ⟨hp, hq2, s, hs, h⟩
      have hsum : (((g.productions B).filter
          (fun p => p ∉ notAllowedProds g.noneOp (g.productions B) b)).map
          (fun q => prob B q.rhs)).sum ≠ 0 := by
        rw [e2]
        exact hrem B s hs hlq
      rw [if_neg hsum]
      simp only [Option.some.injEq, List.map_map]
      apply List.map_congr_left
      intro p hp
      obtain ⟨hp1, hp2⟩ := List.mem_filter.1 hp
      have hp3 := (mem_productions.1 hp1).2
      obtain ⟨lhs, rhs⟩ := p
      simp only at hp3
      subst hp3
      simp only [Function.comp, condProb]
      rw [if_neg hnil, if_neg (by simpa using hp2)]

theorem sum_map_ite {α : Type} (l : List α) (P : α → Bool) (f : α → ℚ) :
    (l.map fun a => if P a then 0 else f a).sum = ((l.filter fun a => !P a).map f).sum := by
  induction l with
  | nil => rfl
  | cons a l ih =>
    by_cases h : P a
    · simp [h, ih]
    · simp [h, ih]

/-- **C139**: whatever a constraint excludes, the probabilities of the choices are a distribution
over the productions of the nonterminal, if those of the prior are. -/
theorem C139_distribution (g : CGrammar) (prob : Str → List Sym → ℚ) (hrem : g.Remaining prob)
    (c : FunConstraint) (op : Sym) (before : List Str) (B : Str)
    (hone : ((g.productions B).map fun p => prob B p.rhs).sum = 1) :
    ((g.productions B).map fun p =>
      condProb g.toGrammar prob (g.excluded c op before B) B p.rhs).sum = 1 := by
  by_cases hnil : g.excluded c op before B = []
  · rw [hnil]
    simpa [condProb] using hone
  · have hsum : (((g.productions B).filter
        (fun p => p ∉ g.excluded c op before B)).map (fun q => prob B q.rhs)).sum ≠ 0 := by
      obtain ⟨q, hq⟩ := List.exists_mem_of_ne_nil _ hnil
      unfold CGrammar.excluded at hq hnil ⊢
      by_cases hans : c.answer op before = some false
      swap
      · rw [if_neg hans] at hq; simp at hq
      rw [if_pos hans] at hq ⊢
      obtain ⟨hq1, hq2⟩ := List.mem_filter.1 hq
      rw [Option.any_eq_true] at hq2
      obtain ⟨s, hs, hq3⟩ := hq2
      rw [decide_eq_true_eq] at hq3
      obtain ⟨hq4, hq5⟩ := mem_productions.1 hq1
      have hlq : g.Legal B [.t s] := by
        unfold Grammar.Legal
        rw [← hq5, ← hq3]
        exact hq4
      have e2 : (g.productions B).filter (fun p => p ∉ (g.productions B).filter
          (fun p => g.noneOp.any fun s => p.rhs = [.t s])) =
          (g.productions B).filter (·.rhs ≠ [.t s]) := by
        apply List.filter_congr
        intro p hp
        rw [Bool.eq_iff_iff, decide_eq_true_eq, decide_eq_true_eq, not_iff_not, List.mem_filter, hs]
        simp [hp]
      rw [e2]
      exact hrem B s hs hlq
    have e : ∀ p ∈ g.productions B, condProb g.toGrammar prob (g.excluded c op before B) B p.rhs =
        (fun p => if decide (p ∈ g.excluded c op before B) then 0 else prob B p.rhs /
          (((g.productions B).filter (fun p => p ∉ g.excluded c op before B)).map
            fun p => prob B p.rhs).sum) p := by
      intro p hp
      have hp3 := (mem_productions.1 hp).2
      obtain ⟨lhs, rhs⟩ := p
      simp only at hp3
      subst hp3
      simp only [condProb, decide_eq_true_eq]
      rw [if_neg hnil]
    rw [List.map_congr_left e, sum_map_ite]
    have e3 : ((g.productions B).filter fun a => !decide (a ∈ g.excluded c op before B)) =
        (g.productions B).filter (fun p => p ∉ g.excluded c op before B) := by
      apply List.filter_congr
      intro p _
      simp
    rw [e3]
    generalize (g.productions B).filter (fun p => p ∉ g.excluded c op before B) = l at hsum ⊢
    have e4 : ∀ (l : List Production) (S : ℚ), (l.map fun p => prob B p.rhs / S).sum =
        (l.map fun p => prob B p.rhs).sum / S := by
      intro l S
      induction l with
      | nil => simp
      | cons a l ih => simp [ih, add_div]
    rw [e4, div_self hsum]

/-! ## A concrete case -/

/-- At most one of the two operations may be `zero`, for a function that is told texts and for one
that is told operations. -/
def consNames : FunConstraint where
  start op := some (if op = .t "Seq".toList then [none, none] else [])
  ask _ d := some (.list [true, d[0]? != some (some "(OPS zero)".toList) &&
    d[0]? != some (some "zero".toList)])

/-- Two operations in sequence, with a prior. -/
def cpDemo (c : FunConstraint) : CGrammar :=
  { consDemo (.fn c) with
    prior := some [("S".toList, [1]), ("OPS".toList, [1 / 4, 3 / 4])] }

def cpProb : Str → List Sym → ℚ := fun A rhs =>
  if A = "S".toList then 1 else if rhs = [.t "conv".toList] then 1 / 4 else 3 / 4

theorem cpDemo_legal {c : FunConstraint} {A : Str} {rhs : List Sym} (h : (cpDemo c).Legal A rhs) :
    (A = "S".toList ∧ rhs = [.t "Seq".toList, .nt "OPS".toList, .nt "OPS".toList]) ∨
    (A = "OPS".toList ∧ rhs = [.t "conv".toList]) ∨ (A = "OPS".toList ∧ rhs = [.t "zero".toList]) := by
  simpa [Grammar.Legal, cpDemo, consDemo] using h

theorem heads_nil {f : Forest} (h : f.heads = []) : f = .nil := by
  cases f <;> simp [Forest.heads] at h ⊢

theorem heads_single {f : Forest} {s : Str} (h : f.heads = [.t s]) : f = .leaf s .nil := by
  cases f with
  | nil => simp [Forest.heads] at h
  | leaf w r =>
    simp only [Forest.heads, List.cons.injEq, Sym.t.injEq] at h
    rw [h.1, heads_nil h.2]
  | node B k r => simp [Forest.heads] at h

theorem cpDemo_readable (c : FunConstraint) : (cpDemo c).Readable where
  lhs := by
    intro p hp
    simp [cpDemo, consDemo] at hp
    rcases hp with rfl | rfl | rfl <;> decide
  rhs := by
    intro p hp s hs
    simp [cpDemo, consDemo] at hp
    rcases hp with rfl | rfl | rfl <;> simp at hs <;> subst hs <;> decide
  apart := by
    intro p hp q hq
    simp [cpDemo, consDemo] at hp hq
    rcases hp with rfl | rfl | rfl <;> rcases hq with rfl | rfl | rfl <;> decide
  defined := by
    intro p hp B hB
    simp [cpDemo, consDemo] at hp
    rcases hp with rfl | rfl | rfl <;> simp at hB
    subst hB
    exact ⟨⟨"OPS".toList, [.t "conv".toList]⟩, by simp [cpDemo, consDemo], rfl⟩
  prefixFree := by
    intro p hp q hq
    simp [cpDemo, consDemo] at hp hq
    rcases hp with rfl | rfl | rfl <;> rcases hq with rfl | rfl | rfl <;> decide

theorem consNames_plain : consNames.Plain (cpDemo consNames) where
  places := by
    intro A op rhs h
    rcases cpDemo_legal h with ⟨_, h⟩ | ⟨_, h⟩ | ⟨_, h⟩ <;>
      · obtain ⟨rfl, rfl⟩ := List.cons.inj h
        decide
  roots := by
    intro A op rhs _ l hl n
    cases l with
    | nil => rfl
    | cons x l =>
      obtain ⟨B, k⟩ := x
      obtain ⟨h1, _⟩ := hl (B, k) (by simp)
      simp only [consNames, List.map_cons, List.cons_append, List.getElem?_cons_zero]
      congr 4
      rcases cpDemo_legal h1 with ⟨hB, hk⟩ | ⟨hB, hk⟩ | ⟨hB, hk⟩
      · simp only at hB hk
        subst hB
        have e1 : k.opName = "Seq".toList := by simp [Forest.opName, hk, Sym.str]
        have e2 : treeText "S".toList k = '(' :: 'S' :: (k.text ++ [')']) := rfl
        rw [e1, e2]
        have e3 : (some (some ('(' :: 'S' :: (k.text ++ [')']))) : Option (Option Str)) !=
            some (some "(OPS zero)".toList) := by
          simp
        have e4 : (some (some ('(' :: 'S' :: (k.text ++ [')']))) : Option (Option Str)) !=
            some (some "zero".toList) := by
          simp
        rw [e3, e4]
        decide
      · simp only at hB hk
        subst hB
        rw [heads_single hk]
        decide
      · simp only at hB hk
        subst hB
        rw [heads_single hk]
        decide
  same := by
    intro A rhs h B hB C hC
    rcases cpDemo_legal h with ⟨_, rfl⟩ | ⟨_, rfl⟩ | ⟨_, rfl⟩
    · simp [argSyms] at hB hC
      rw [hB, hC]
      exact id
    · simp [argSyms] at hB
    · simp [argSyms] at hB

/-- `(S Seq (OPS zero) (OPS conv))` -/
def cpKids : Forest := .leaf "Seq".toList (.node "OPS".toList (.leaf "zero".toList .nil)
  (.node "OPS".toList (.leaf "conv".toList .nil) .nil))

/-- `C139_product_partial` at work: the first operation is `zero`, so the second can only be
`conv`. -/
example : cComputePrior (cpDemo consNames) "(S Seq (OPS zero) (OPS conv))".toList =
    some (3 / 4) := by
  have h := C139_product_partial (cpDemo consNames) (cpDemo_readable _) (by decide +kernel) _ rfl
    cpProb (by
      intro p hp
      simp [cpDemo, consDemo] at hp
      rcases hp with rfl | rfl | rfl <;> decide +kernel)
    (by
      intro B s hs hl
      rcases cpDemo_legal hl with ⟨rfl, h⟩ | ⟨rfl, h⟩ | ⟨rfl, h⟩
      · simp at h
      · simp at h
        subst h
        simp [cpDemo, consDemo] at hs
      · simp at h
        subst h
        decide +kernel)
    consNames rfl consNames_plain "S".toList cpKids (by unfold Grammar.Legal; decide +kernel)
    (.leaf (.node (rhs := [.t "zero".toList]) (by unfold Grammar.Legal; decide +kernel) (.leaf .nil)
      (.node (rhs := [.t "conv".toList]) (by unfold Grammar.Legal; decide +kernel) (.leaf .nil) .nil)))
    (by
      rintro ⟨rhs, s, hl, hs, hh⟩
      rcases cpDemo_legal hl with ⟨_, rfl⟩ | ⟨h, _⟩ | ⟨h, _⟩
      · simp at hh
        subst hh
        simp [cpDemo, consDemo] at hs
      · simp at h
      · simp at h)
    (by
      rw [everyArgument_iff]
      refine ⟨⟨.t "Seq".toList, rfl, ?_⟩, ?_⟩
      · intro j B k hj
        match j with
        | 0 =>
          simp only [cpKids, Forest.items, List.getElem?_cons_zero, Option.some.injEq,
            Prod.mk.injEq] at hj
          obtain ⟨rfl, rfl⟩ := hj
          exact ⟨true, ⟨[none, none], rfl, by decide, Or.inr ⟨_, rfl, rfl⟩⟩, by simp⟩
        | 1 =>
          simp only [cpKids, Forest.items, List.getElem?_cons_succ, List.getElem?_cons_zero,
            Option.some.injEq, Prod.mk.injEq] at hj
          obtain ⟨rfl, rfl⟩ := hj
          refine ⟨false, ⟨[none, none], rfl, by decide, Or.inr ⟨_, rfl, by decide⟩⟩, ?_⟩
          intro _ s hs
          obtain rfl := Option.some.inj hs
          decide
        | j + 2 => simp [cpKids, Forest.items] at hj
      · intro B k hk
        simp only [cpKids, Forest.items, List.mem_cons, Prod.mk.injEq, List.not_mem_nil,
          or_false] at hk
        rcases hk with ⟨rfl, rfl⟩ | ⟨rfl, rfl⟩ <;>
          · rw [everyArgument_iff]
            exact ⟨⟨_, rfl, by simp [Forest.items]⟩, by simp [Forest.items]⟩)
  have e1 : treeText "S".toList cpKids = "(S Seq (OPS zero) (OPS conv))".toList := by decide +kernel
  have e2 : constrainedProb (cpDemo consNames) consNames cpProb "S".toList cpKids = 3 / 4 := by
    decide +kernel
  rw [e1, e2] at h
  exact h

/-! ## Where it fails -/

/-- **C139 fails** for a constraint function that looks at the texts that the sampler gives it:
after `zero` the sampler has only one choice, so that `(S Seq (OPS zero) (OPS conv))` has the
probability 3/4, but `compute_prior` tells the function something else, and the result is 3/16.
The three trees that can be sampled have 7/16 together. -/
theorem C139_text_fails :
    cSampler (cpDemo consFun) 3 1 none [] true [0, 1, 1] = none ∧
    cSampler (cpDemo consFun) 3 1 none [] true [0, 1, 0] =
      some (["(S Seq (OPS zero) (OPS conv))".toList], []) ∧
    treeText "S".toList cpKids = "(S Seq (OPS zero) (OPS conv))".toList ∧
    constrainedProb (cpDemo consFun) consFun cpProb "S".toList cpKids = 3 / 4 ∧
    cComputePrior (cpDemo consFun) "(S Seq (OPS zero) (OPS conv))".toList = some (3 / 16) ∧
    cComputePrior (cpDemo consFun) "(S Seq (OPS conv) (OPS conv))".toList = some (1 / 16) ∧
    cComputePrior (cpDemo consFun) "(S Seq (OPS conv) (OPS zero))".toList = some (3 / 16) := by
  refine ⟨?_, ?_, ?_, ?_, ?_, ?_, ?_⟩ <;> decide +kernel

/-- The same grammar with `zero` in front of `conv`. -/
def zeroFirst : CGrammar where
  start := "S".toList
  prods := [⟨"S".toList, [.t "Seq".toList, .nt "OPS".toList, .nt "OPS".toList]⟩,
    ⟨"OPS".toList, [.t "zero".toList]⟩, ⟨"OPS".toList, [.t "conv".toList]⟩]
  prior := some [("S".toList, [1]), ("OPS".toList, [3 / 4, 1 / 4])]
  constraints := .fn consNames
  noneOp := some "zero".toList

/-- **C139 fails** for trees that the constraint excludes: `(S Seq (OPS zero) (OPS zero))` cannot be
sampled, its probability is zero, but `compute_prior` gives it 3/4, the probability of the tree
with `conv` instead. -/
theorem C139_excluded_fails :
    cSampler zeroFirst 3 1 none [] true [0, 0, 1] = none ∧
    cSampler zeroFirst 3 1 none [] true [0, 0, 0] =
      some (["(S Seq (OPS zero) (OPS conv))".toList], []) ∧
    constrainedProb zeroFirst consNames cpProb "S".toList
      (.leaf "Seq".toList (.node "OPS".toList (.leaf "zero".toList .nil)
        (.node "OPS".toList (.leaf "zero".toList .nil) .nil))) = 0 ∧
    cComputePrior zeroFirst "(S Seq (OPS zero) (OPS zero))".toList = some (3 / 4) ∧
    cComputePrior zeroFirst "(S Seq (OPS zero) (OPS conv))".toList = some (3 / 4) := by
  refine ⟨?_, ?_, ?_, ?_, ?_⟩ <;> decide +kernel

/-- A grammar whose start symbol can be the none operation. -/
def noneRoot : CGrammar where
  start := "OPS".toList
  prods := [⟨"OPS".toList, [.t "conv".toList]⟩, ⟨"OPS".toList, [.t "zero".toList]⟩]
  prior := some [("OPS".toList, [1 / 4, 3 / 4])]
  constraints := .fn consNames
  noneOp := some "zero".toList

/-- **C139 fails** if the root can be the none operation: `compute_prior` raises. -/
theorem C139_root_fails :
    cSampler noneRoot 1 1 none [] true [0] = some (["(OPS conv)".toList], []) ∧
    constrainedProb noneRoot consNames cpProb "OPS".toList (.leaf "conv".toList .nil) = 1 / 4 ∧
    cComputePrior noneRoot "(OPS conv)".toList = none := by
  refine ⟨?_, ?_, ?_⟩ <;> decide +kernel

/-- The first argument is always `conv`, the second may not be `zero`. -/
def mixedArgs : CGrammar where
  start := "S".toList
  prods := [⟨"S".toList, [.t "Seq".toList, .nt "CONV".toList, .nt "OPS".toList]⟩,
    ⟨"CONV".toList, [.t "conv".toList]⟩,
    ⟨"OPS".toList, [.t "conv".toList]⟩, ⟨"OPS".toList, [.t "zero".toList]⟩]
  prior := some [("S".toList, [1]), ("CONV".toList, [1]), ("OPS".toList, [1 / 4, 3 / 4])]
  constraints := .fn ⟨fun op => some (if op = .t "Seq".toList then [none, none] else []),
    fun _ _ => some (.list [true, false])⟩
  noneOp := some "zero".toList

/-- **C139 fails** if only some of the arguments of an operation can be the none operation, because
the others are not counted: the only tree that can be sampled gets 1/4. -/
theorem C139_mixed_fails :
    cSampler mixedArgs 3 1 none [] true [0, 0, 0] =
      some (["(S Seq (CONV conv) (OPS conv))".toList], []) ∧
    cSampler mixedArgs 3 1 none [] true [0, 0, 1] = none ∧
    cComputePrior mixedArgs "(S Seq (CONV conv) (OPS conv))".toList = some (1 / 4) := by
  refine ⟨?_, ?_, ?_⟩ <;> decide +kernel

/-- **C139 fails** for constraint objects: they cannot be called, and `compute_prior` raises. -/
theorem C139_object_fails :
    let g : CGrammar := { cpDemo consNames with constraints := .obj consObj }
    cSampler g 3 1 none [] true [0, 1, 0] = some (["(S Seq (OPS zero) (OPS conv))".toList], []) ∧
    cComputePrior g "(S Seq (OPS zero) (OPS conv))".toList = none := by
  refine ⟨?_, ?_⟩ <;> decide +kernel

end Verif.Gram
