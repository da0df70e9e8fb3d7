import Verif.Grammar.ConstrainedRule

/-!
# Constrained grammars (C113)
-/

namespace Verif.Gram

theorem cSamplerList_mem {g : CGrammar} {up : Bool} {fuel : ℕ} {A : Str} {na : List Production}
    (n : ℕ) : ∀ {ds ds' ss}, cSamplerList g up fuel A na n ds = some (ss, ds') →
      ss.length = n ∧ ∀ s ∈ ss, ∃ d d' s', cSamplerRec g up fuel A na d = some (s', d') ∧
        s = s' ++ [')'] := by
  induction n with
  | zero =>
    intro ds ds' ss h
    simp only [cSamplerList, Option.some.injEq, Prod.mk.injEq] at h
    obtain ⟨rfl, _⟩ := h
    simp
  | succ n ih =>
    intro ds ds' ss h
    simp only [cSamplerList] at h
    split at h
    · simp at h
    · rename_i s d1 h1
      split at h
      · simp at h
      · rename_i ss' d2 h2
        simp only [Option.some.injEq, Prod.mk.injEq] at h
        obtain ⟨rfl, _⟩ := h
        obtain ⟨h3, h4⟩ := ih h2
        refine ⟨by simp [h3], ?_⟩
        intro t ht
        rcases List.mem_cons.1 ht with rfl | ht
        · exact ⟨_, _, _, h1, rfl⟩
        · exact h4 t ht

theorem drawn_legal {g : Grammar} {up : Bool} (A : Str) (na : List Production)
    (p : Option (List ℚ)) (ds : List ℕ) (i : ℕ) (ds' : List ℕ) (prod : Production)
    (_ : constrainedProbs g up A na = some p)
    (_ : choice ((g.productions A).filter (· ∉ na)).length p ds = some (i, ds'))
    (h : ((g.productions A).filter (· ∉ na))[i]? = some prod) : g.Legal A prod.rhs := by
  have hm := (List.mem_filter.1 (List.mem_of_getElem? h)).1
  unfold Grammar.productions at hm
  obtain ⟨h1, h2⟩ := List.mem_filter.1 hm
  have h3 : prod.lhs = A := by simpa using h2
  unfold Grammar.Legal
  rw [← h3]
  exact h1

/-- **C113**, constraint functions: as many texts are sampled as asked for, and each is the text of
a parse tree of the grammar in which, for every argument of every operation, the constraint
function, told the arguments before it, has answered, and the argument is not the none operation if
the answer was no.  The root does not use a production that the caller has excluded. -/
theorem C113_function (g : CGrammar) (c : FunConstraint) (hc : g.constraints = .fn c)
    (fuel n : ℕ) (startSymbol : Option Str) (na : List Production) (userPriors : Bool)
    (ds ds' : List ℕ) (ss : List Str)
    (h : cSampler g fuel n startSymbol na userPriors ds = some (ss, ds')) :
    ss.length = n ∧ ∀ s ∈ ss, ∃ kids, s = treeText (startSymbol.getD g.start) kids ∧
      g.Legal (startSymbol.getD g.start) kids.heads ∧ Derives g.Legal kids.heads kids ∧
      ⟨startSymbol.getD g.start, kids.heads⟩ ∉ na ∧
      EveryArgument (c.Permits g.noneOp) (startSymbol.getD g.start) kids := by
  obtain ⟨h1, h2⟩ := cSamplerList_mem n h
  refine ⟨h1, fun s hs => ?_⟩
  obtain ⟨d, d', s', hd, rfl⟩ := h2 s hs
  rw [cSamplerRec_fun hc] at hd
  obtain ⟨kids, rfl, h3, h4, h5, h6⟩ :=
    ruleSampler_ok (R := funRule g c) (drawn_legal (g := g.toGrammar)) fuel _ _ _ _ _ hd
  exact ⟨kids, rfl, h3, h4, h5, h6.mono fun op before B k hk =>
    (funRule_permits g c op before B k hk.2).1 hk.1⟩

/-- **C113**, constraint objects: each text sampled is the text of a parse tree of the grammar in
which no argument uses a production that the constraint object, told the arguments before it, does
not allow. -/
theorem C113_object (g : CGrammar) (c : ObjConstraint) (hc : g.constraints = .obj c)
    (fuel n : ℕ) (startSymbol : Option Str) (na : List Production) (userPriors : Bool)
    (ds ds' : List ℕ) (ss : List Str)
    (h : cSampler g fuel n startSymbol na userPriors ds = some (ss, ds')) :
    ss.length = n ∧ ∀ s ∈ ss, ∃ kids, s = treeText (startSymbol.getD g.start) kids ∧
      g.Legal (startSymbol.getD g.start) kids.heads ∧ Derives g.Legal kids.heads kids ∧
      ⟨startSymbol.getD g.start, kids.heads⟩ ∉ na ∧
      EveryArgument (c.Permits g.toGrammar) (startSymbol.getD g.start) kids := by
  obtain ⟨h1, h2⟩ := cSamplerList_mem n h
  refine ⟨h1, fun s hs => ?_⟩
  obtain ⟨d, d', s', hd, rfl⟩ := h2 s hs
  rw [cSamplerRec_obj hc] at hd
  obtain ⟨kids, rfl, h3, h4, h5, h6⟩ :=
    ruleSampler_ok (R := objRule g c) (drawn_legal (g := g.toGrammar)) fuel _ _ _ _ _ hd
  exact ⟨kids, rfl, h3, h4, h5, h6.mono fun op before B k hk =>
    (objRule_permits g c op before B k).1 hk.1⟩

/-- **C113**, both kinds: a sampler that follows a prior, which the setter of `prior` has accepted,
never uses a production whose probability is zero. -/
theorem C113_prior (g : CGrammar) (g₀ : Grammar) (v : List (Str × List ℚ))
    (hv : setPrior g₀ (some v) = some g.toGrammar) (fuel n : ℕ) (startSymbol : Option Str)
    (na : List Production) (ds ds' : List ℕ) (ss : List Str)
    (h : cSampler g fuel n startSymbol na true ds = some (ss, ds')) :
    ∀ s ∈ ss, IsTreeOf (g.Possible v) (startSymbol.getD g.start) s := by
  have hset : g.prior = some v ∧ ∀ A ps, lookup A v = some ps → g.productions A ≠ [] →
      ps.length = (g.productions A).length := by
    simp only [setPrior] at hv
    split_ifs at hv with hall
    have hv := (Option.some.inj hv).symm
    have hp : g.prods = g₀.prods := by rw [hv]
    refine ⟨by rw [hv], fun A ps hlk hne => ?_⟩
    have hprod : g.productions A = g₀.productions A := by
      unfold Grammar.productions; rw [hp]
    rw [hprod] at hne ⊢
    obtain ⟨p, hpm⟩ := List.exists_mem_of_ne_nil _ hne
    unfold Grammar.productions at hpm
    obtain ⟨hm, hA⟩ := List.mem_filter.1 hpm
    have hA : p.lhs = A := by simpa using hA
    have hnt : A ∈ g₀.nonterminals := by
      unfold Grammar.nonterminals Grammar.lhss
      rw [List.mem_dedup, List.mem_map]
      exact ⟨p, hm, hA⟩
    have := List.all_eq_true.1 hall A hnt
    unfold checkPrior at this
    rw [hlk] at this
    simp only [Bool.and_eq_true, beq_iff_eq] at this
    exact this.1
  have hok : ∀ A na p ds i ds' prod, constrainedProbs g.toGrammar true A na = some p →
      choice ((g.productions A).filter (· ∉ na)).length p ds = some (i, ds') →
      ((g.productions A).filter (· ∉ na))[i]? = some prod → g.Possible v A prod.rhs := by
    intro A na p ds i ds' prod hp hch hprod
    have hm := (List.mem_filter.1 (List.mem_of_getElem? hprod)).1
    have hlhs : prod.lhs = A := by
      unfold Grammar.productions at hm
      simpa using (List.mem_filter.1 hm).2
    obtain ⟨_, _, hps⟩ := choice_lt hch
    unfold constrainedProbs at hp
    rw [hset.1] at hp
    simp only [if_true] at hp
    split at hp
    · simp at hp
    rename_i ps hlk
    have hlen := hset.2 A ps hlk (List.ne_nil_of_mem hm)
    split_ifs at hp with h1 h2 h3
    · obtain rfl := Option.some.inj hp
      obtain ⟨_, q, hq, hq0⟩ := hps ps rfl
      subst h1
      have e : (g.productions A).filter (· ∉ ([] : List Production)) = g.productions A := by
        rw [List.filter_eq_self]; simp
      rw [e] at hprod
      refine ⟨ps, i, q, hlk, ?_, hq, hq0⟩
      rw [hprod, ← hlhs]
    · obtain rfl := Option.some.inj hp
      obtain ⟨⟨hl, _⟩, q, hq, hq0⟩ := hps _ rfl
      rw [List.length_map] at hl
      rw [List.getElem?_map, Option.map_eq_some_iff] at hq
      obtain ⟨q', hq', rfl⟩ := hq
      obtain ⟨j, hj1, hj2⟩ := kept_aligned (xs := g.productions A) (na := na) (ps := ps) hlen
        (by simpa using h2) hl hprod hq'
      refine ⟨ps, j, q', hlk, ?_, hj2, ?_⟩
      · rw [hj1, ← hlhs]
      · rintro rfl
        simp at hq0
  obtain ⟨_, h2⟩ := cSamplerList_mem n h
  intro s hs
  obtain ⟨d, d', s', hd, rfl⟩ := h2 s hs
  have key : ∀ R : Rule, cSamplerRec g true fuel = ruleSampler g.toGrammar R true fuel →
      IsTreeOf (g.Possible v) (startSymbol.getD g.start) (s' ++ [')']) := by
    intro R hR
    rw [hR] at hd
    obtain ⟨kids, rfl, h3, h4, _, _⟩ := ruleSampler_ok (R := R) hok fuel _ _ _ _ _ hd
    exact ⟨kids.heads, kids, h3, h4, rfl⟩
  cases hc : g.constraints with
  | fn c => exact key _ (cSamplerRec_fun hc true fuel)
  | obj c => exact key _ (cSamplerRec_obj hc true fuel)
  | unset =>
    exfalso
    cases fuel with
    | zero => simp [cSamplerRec] at hd
    | succ fuel =>
      simp only [cSamplerRec, hc] at hd
      repeat' split at hd
      all_goals simp at hd

/-- **C113**, nothing else is excluded by a constraint function: every parse tree that it permits
can be sampled. -/
theorem C113_function_complete (g : CGrammar) (c : FunConstraint) (hc : g.constraints = .fn c)
    (hstart : ∀ op, (c.start op).isSome) (A : Str) (kids : Forest) (na : List Production)
    (hA : g.Legal A kids.heads) (hk : Derives g.Legal kids.heads kids)
    (hna : ⟨A, kids.heads⟩ ∉ na) (he : EveryArgument (c.Permits g.noneOp) A kids) :
    ∃ fuel ds, cSampler g fuel 1 (some A) na false ds = some ([treeText A kids], []) := by
  have hlegal : ∀ (syms : List Sym) (f : Forest), Derives g.Legal syms f →
      ∀ B k, (B, k) ∈ f.nodes → g.Legal B k.heads := by
    intro syms f hd
    induction hd with
    | nil => simp [Forest.nodes]
    | leaf _ ih => exact ih
    | node ho hk' _ i1 i2 =>
      intro B k hm
      simp only [Forest.nodes, List.cons_append, List.mem_cons, List.mem_append] at hm
      rcases hm with h | h | h
      · obtain ⟨rfl, rfl⟩ := Prod.mk.inj h
        rw [hk'.heads_eq]
        exact ho
      · exact i1 B k h
      · exact i2 B k h
  have he' : EveryArgument (funRule g c).Permits A kids := by
    intro C ks hC
    obtain ⟨op, h1, h2⟩ := he C ks hC
    refine ⟨op, h1, fun j B k hj => (funRule_permits g c op _ B k ?_).2 (h2 j B k hj)⟩
    have hm : (B, k) ∈ ks.nodes :=
      (mem_nodes_iff ks B k).2 ⟨B, k, List.mem_of_getElem? hj, Or.inl rfl⟩
    have hsub : ∀ (f : Forest) (C : Str) (ks : Forest), (C, ks) ∈ f.nodes →
        ∀ x ∈ ks.nodes, x ∈ f.nodes := by
      intro f
      induction f with
      | nil => intro C ks h; simp [Forest.nodes] at h
      | leaf s r ih => exact ih
      | node D d r i1 i2 =>
        intro C ks h x hx
        simp only [Forest.nodes, List.cons_append, List.mem_cons, List.mem_append] at h ⊢
        rcases h with h | h | h
        · obtain ⟨rfl, rfl⟩ := Prod.mk.inj h
          exact Or.inr (Or.inl hx)
        · exact Or.inr (Or.inl (i1 C ks h x hx))
        · exact Or.inr (Or.inr (i2 C ks h x hx))
    refine hlegal _ _ hk B k ?_
    rcases hC with hC | hC
    · obtain ⟨rfl, rfl⟩ := Prod.mk.inj hC
      exact hm
    · exact hsub kids C ks hC _ hm
  obtain ⟨ds, hds⟩ := ruleSampler_complete (R := funRule g c)
    (fun op => by
      obtain ⟨d, hd⟩ := Option.isSome_iff_exists.1 (hstart op)
      exact ⟨(d, 0), by show (c.start op).map _ = _; rw [hd]; rfl⟩)
    (kids.depth + 1) A kids na hA hk hna he' (by omega)
  refine ⟨kids.depth + 1, ds, ?_⟩
  have h2 := hds []
  rw [List.append_nil, ← cSamplerRec_fun hc] at h2
  simp [cSampler, cSamplerList, h2, treeText]

/-- **C113**, nothing else is excluded by a constraint object: every parse tree that it permits
can be sampled. -/
theorem C113_object_complete (g : CGrammar) (c : ObjConstraint) (hc : g.constraints = .obj c)
    (hstart : ∀ op, (c.start op).isSome) (A : Str) (kids : Forest) (na : List Production)
    (hA : g.Legal A kids.heads) (hk : Derives g.Legal kids.heads kids)
    (hna : ⟨A, kids.heads⟩ ∉ na) (he : EveryArgument (c.Permits g.toGrammar) A kids) :
    ∃ fuel ds, cSampler g fuel 1 (some A) na false ds = some ([treeText A kids], []) := by
  obtain ⟨ds, hds⟩ := ruleSampler_complete (g := g.toGrammar) (R := objRule g c)
    (fun op => by
      obtain ⟨d, hd⟩ := Option.isSome_iff_exists.1 (hstart op)
      exact ⟨d, hd⟩)
    (kids.depth + 1) A kids na hA hk hna
    (he.mono fun op before B k h => (objRule_permits g c op before B k).2 h) (by omega)
  refine ⟨kids.depth + 1, ds, ?_⟩
  have h2 := hds []
  rw [List.append_nil, ← cSamplerRec_obj hc] at h2
  simp [cSampler, cSamplerList, h2, treeText]

/-- **C113 fails** for constraint objects that put no constraint on an operation by returning `None`:
no operation with an argument is ever sampled, although the code asks whether the constraint is
`None`.  (Every tree sampled is a single operation.) -/
theorem C113_no_constraint_fails (g : CGrammar) (c : ObjConstraint) (hc : g.constraints = .obj c)
    (hnone : ∀ op, c.start op = some none) (fuel n : ℕ) (startSymbol : Option Str)
    (na : List Production) (userPriors : Bool) (ds ds' : List ℕ) (ss : List Str)
    (h : cSampler g fuel n startSymbol na userPriors ds = some (ss, ds')) :
    ∀ s ∈ ss, ∃ kids, s = treeText (startSymbol.getD g.start) kids ∧ kids.items = [] := by
  intro s hs
  obtain ⟨kids, h1, _, _, _, h2⟩ := (C113_object g c hc fuel n startSymbol na userPriors ds ds' ss h).2 s hs
  refine ⟨kids, h1, ?_⟩
  obtain ⟨op, _, h3⟩ := h2 _ kids (Or.inl rfl)
  cases hi : kids.items with
  | nil => rfl
  | cons x l =>
    obtain ⟨x₁, _, ⟨x₀, h4, _⟩, _⟩ := h3 0 x.1 x.2 (by rw [hi]; rfl)
    rw [hnone op] at h4
    cases Option.some.inj h4

/-! ## A concrete case -/

/-- Two operations in sequence. -/
def consDemo (cs : Constraints) : CGrammar where
  start := "S".toList
  prods := [⟨"S".toList, [.t "Seq".toList, .nt "OPS".toList, .nt "OPS".toList]⟩,
    ⟨"OPS".toList, [.t "conv".toList]⟩, ⟨"OPS".toList, [.t "zero".toList]⟩]
  prior := none
  constraints := cs
  noneOp := some "zero".toList

/-- At most one of the two operations may be `zero`: the second only if the first is not. -/
def consFun : FunConstraint where
  start op := some (if op = .t "Seq".toList then [none, none] else [])
  ask _ d := some (.list [true, d[0]? != some (some "(OPS zero)".toList)])

/-- The same as an object. -/
def consObj : ObjConstraint where
  State := Bool
  start _ := some (some false)
  notAllowed b ps := some (if b then ps.filter (·.rhs = [.t "zero".toList]) else [])
  update _ s := some (s = "(OPS zero)".toList)

example : cSampler (consDemo (.fn consFun)) 3 1 none [] false [0, 1, 0] =
    some (["(S Seq (OPS zero) (OPS conv))".toList], []) := by decide +kernel

example : cSampler (consDemo (.fn consFun)) 3 1 none [] false [0, 1, 1] = none := by
  decide +kernel

example : cSampler (consDemo (.obj consObj)) 3 1 none [] false [0, 1, 0] =
    some (["(S Seq (OPS zero) (OPS conv))".toList], []) := by decide +kernel

example : cSampler (consDemo (.obj consObj)) 3 1 none [] false [0, 1, 1] = none := by
  decide +kernel

/-- The hypotheses of `C113_function_complete` hold for a tree with a `zero`. -/
example : (∀ op, (consFun.start op).isSome) ∧
    EveryArgument (consFun.Permits (some "zero".toList)) "S".toList
      (.leaf "Seq".toList (.node "OPS".toList (.leaf "zero".toList .nil)
        (.node "OPS".toList (.leaf "conv".toList .nil) .nil))) := by
  refine ⟨fun _ => rfl, ?_⟩
  rw [everyArgument_iff]
  refine ⟨⟨.t "Seq".toList, rfl, ?_⟩, ?_⟩
  · intro j B k hj
    match j with
    | 0 =>
      simp only [Forest.items, List.getElem?_cons_zero, Option.some.injEq, Prod.mk.injEq] at hj
      obtain ⟨rfl, rfl⟩ := hj
      exact ⟨true, ⟨[none, none], rfl, by decide, Or.inr ⟨_, rfl, rfl⟩⟩, by simp⟩
    | 1 =>
      simp only [Forest.items, List.getElem?_cons_succ, List.getElem?_cons_zero, Option.some.injEq,
        Prod.mk.injEq] at hj
      obtain ⟨rfl, rfl⟩ := hj
      refine ⟨false, ⟨[none, none], rfl, by decide, Or.inr ⟨_, rfl, by decide⟩⟩, ?_⟩
      intro _ s hs
      obtain rfl := Option.some.inj hs
      decide
    | j + 2 => simp [Forest.items] at hj
  · intro B k hk
    simp only [Forest.items, List.mem_cons, Prod.mk.injEq, List.not_mem_nil, or_false] at hk
    rcases hk with ⟨rfl, rfl⟩ | ⟨rfl, rfl⟩ <;>
      · rw [everyArgument_iff]
        exact ⟨⟨_, rfl, by simp [Forest.items]⟩, by simp [Forest.items]⟩

/-- With a prior: the production `zero` has probability zero. -/
def consPriorDemo : CGrammar :=
  { consDemo (.fn consFun) with
    prior := some [("S".toList, [1]), ("OPS".toList, [1, 0])] }

example : setPrior (consDemo (.fn consFun)).toGrammar
      (some [("S".toList, [1]), ("OPS".toList, [1, 0])]) = some consPriorDemo.toGrammar ∧
    cSampler consPriorDemo 3 1 none [] true [0, 0, 0] =
      some (["(S Seq (OPS conv) (OPS conv))".toList], []) ∧
    cSampler consPriorDemo 3 1 none [] true [0, 1, 0] = none := by
  refine ⟨?_, by decide +kernel, by decide +kernel⟩
  have : (consDemo (.fn consFun)).toGrammar.nonterminals.all (checkPrior
      (consDemo (.fn consFun)).toGrammar [("S".toList, [1]), ("OPS".toList, [1, 0])]) = true := by
    decide +kernel
  simp only [setPrior]
  rw [if_pos this]
  rfl

end Verif.Gram
